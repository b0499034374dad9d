/-
Properties of the memory manager of named arrays (model: `Verif/Gmm.lean`).
-/
import Verif.Gmm

namespace Props.NamedArrays
open Gmm

/-! ### What the manager is for: a map from names to arrays -/

/-- A variable: type, layout, attributes (without key), address of the array. -/
structure Field where
  dtype : Nat
  l : List Dim
  a : Attr
  ptr : Nat
deriving DecidableEq

/-- Attributes without their key. -/
def noKey (a : Attr) : Attr := { a with key := 0 }

/-- The specification: a map, the arrays, and how many variables have been made so far. -/
structure Spec where
  map : Name → Option Field
  heap : List (Option Arr)
  cnt : Nat

/-- What a program may do: allocate an array of its own, store into an array, and call the
manager. -/
inductive Op
  | alloc (arr : Arr)
  | store (ad : Nat) (data : List Nat)
  | create (ext : Nat) (name : Name) (p : Option Nat) (m : Meta) (junk : Nat → Nat) (nan : Nat)
  | get (ext : Nat) (name : Name) (junk : Nat)
  | delete (name : Name)
  | rename (old new : Name)
  | getmeta (name : Name)
  | update (name : Name) (m : Meta)

/-- What comes back: status, pointer, metadata (without key). -/
structure Reply where
  code : Int
  p : Option Nat
  m : Option (List Dim × Attr)
deriving DecidableEq

def bare (m : Meta) : Option (List Dim × Attr) := some (m.l, noKey m.a)

/-- One step of a program running with the modelled code. -/
def step (s : S) : Op → Option (S × Reply)
  | .alloc arr => some ({ s with heap := s.heap ++ [some arr] }, ⟨0, some s.heap.length, none⟩)
  | .store ad data =>
    some ({ s with heap := s.heap.modify ad (·.map fun arr => { arr with data := data }) },
      ⟨0, none, none⟩)
  | .create ext name p m junk nan =>
    (create ext name p m junk nan s).map fun r => (r.1, ⟨r.2.code, r.2.p, bare r.2.m⟩)
  | .get ext name junk =>
    (get ext name junk s).map fun r => (r.1, ⟨r.2.code, r.2.p, bare r.2.m⟩)
  | .delete name => (delete name s).map fun r => (r.1, ⟨r.2, none, none⟩)
  | .rename old new => some ((rename old new s).1, ⟨(rename old new s).2, none, none⟩)
  | .getmeta name => (getmeta name s).map fun r => (r.1, ⟨r.2.1, none, r.2.2.bind bare⟩)
  | .update name m => (updatemeta name m s).map fun r => (r.1, ⟨r.2, none, none⟩)

def put (M : Name → Option Field) (n : Name) (f : Field) : Name → Option Field :=
  fun k => if k = n then some f else M k

def del (M : Name → Option Field) (n : Name) : Name → Option Field :=
  fun k => if k = n then none else M k

/-- The array at an address has the size asked for in every dimension. -/
def fits (heap : List (Option Arr)) (ad ext : Nat) (l : List Dim) : Bool :=
  match heap[ad]? with
  | some (some arr) => consistent ext arr l
  | _ => false

/-- Dimension `r` is the last one with useful contents. -/
def lastUsed (l : List Dim) (r : Nat) : Bool :=
  ((l.drop (r - 1)).head?.any fun d => d.n != 0) && (l.drop r).all fun d => d.n == 0

/-- What is in a freshly made variable. -/
def start (flags : BitVec 32) (nan : Nat) (junk : Nat → Nat) (k : Nat) : Nat :=
  if flags.getLsbD 2 then nan else if flags.getLsbD 1 then 0 else junk k

/-- One step of the same program with the specification. -/
def sstep (sp : Spec) : Op → Spec × Reply
  | .alloc arr => ({ sp with heap := sp.heap ++ [some arr] }, ⟨0, some sp.heap.length, none⟩)
  | .store ad data =>
    ({ sp with heap := sp.heap.modify ad (·.map fun arr => { arr with data := data }) },
      ⟨0, none, none⟩)
  | .create ext name p m junk nan =>
    if p.any (fun ad => !fits sp.heap ad ext m.l) then (sp, ⟨-4, p, bare m⟩)
    else
      match sp.map (fixed name), p with
      | some _, some ad => (sp, ⟨-5, some ad, bare m⟩)
      | some f, none =>
        if fits sp.heap f.ptr ext m.l = false then (sp, ⟨-4, none, bare m⟩)
        else if f.a.flags.getLsbD 5 then (sp, ⟨-6, none, bare m⟩)
        else
          ({ sp with map := put sp.map (fixed name) <|
              { f with a := { f.a with flags := (m.a.flags &&& 7) ||| f.a.flags ||| 32 } } },
            ⟨0, some f.ptr, bare m⟩)
      | none, p =>
        let f : Field :=
          { dtype := ext
            l := m.l.take (ext % 10) ++ List.replicate (4 - ext % 10) ⟨0, 0, 0, 0, 0⟩
            a := { m.a with key := 0, flags := (m.a.flags &&& 7) ||| 32 }
            ptr := p.getD sp.heap.length }
        let b := (m.l.take (ext % 10)).map fun d => (d.low, d.high)
        let heap := match p with
          | none => sp.heap ++ [some ⟨b, (List.range (total b)).map (start m.a.flags nan junk)⟩]
          | some ad => sp.heap.modify ad (·.map fun arr =>
            { arr with data := arr.data.map (start m.a.flags nan id) })
        (⟨put sp.map (fixed name) f, heap, sp.cnt + 1⟩, ⟨0, some f.ptr, some (f.l, f.a)⟩)
  | .get ext name _ =>
    match sp.map (fixed name) with
    | none => (sp, ⟨-3, none, bare nullMeta⟩)
    | some f =>
      if lastUsed f.l (ext % 10) then (sp, ⟨0, some f.ptr, some (f.l, f.a)⟩)
      else (sp, ⟨-4, none, bare nullMeta⟩)
  | .delete name =>
    match sp.map (fixed name) with
    | none => (sp, ⟨-3, none, none⟩)
    | some f => ({ sp with map := del sp.map (fixed name), heap := sp.heap.set f.ptr none },
        ⟨0, none, none⟩)
  | .rename old new =>
    match sp.map (fixed old), sp.map (fixed new) with
    | some f, none => ({ sp with map := put (del sp.map (fixed old)) (fixed new) f },
        ⟨0, none, none⟩)
    | _, _ => (sp, ⟨-1, none, none⟩)
  | .getmeta name =>
    match sp.map (fixed name) with
    | none => (sp, ⟨-1, none, none⟩)
    | some f => (sp, ⟨0, none, some (f.l, f.a)⟩)
  | .update name m =>
    match sp.map (fixed name) with
    | none => (sp, ⟨-3, none, none⟩)
    | some f =>
      ({ sp with map := put sp.map (fixed name) <|
          { f with
            l := List.zipWith (fun d g => ⟨d.low, d.high, g.halo, g.halomax, g.n⟩) f.l m.l
            a := { f.a with uuid1 := m.a.uuid1, uuid2 := m.a.uuid2, flags := m.a.flags } } },
        ⟨0, none, none⟩)

/-- What a program has to respect. -/
def Pre (sp : Spec) : Op → Prop
  | .alloc arr => arr.data.length = total arr.bounds
  | .store ad data => ∀ arr, sp.heap[ad]? = some (some arr) → data.length = arr.data.length
  | .create ext name p m _ _ =>
    fixed name ≠ tomb ∧ ext ∈ exts ∧ m.l.length = 4 ∧
    (∀ ad, p = some ad → (∃ arr, sp.heap[ad]? = some (some arr)) ∧
      ∀ n f, n ≠ tomb → sp.map n = some f → f.ptr ≠ ad) ∧
    (∀ f, sp.map (fixed name) = some f → f.dtype = ext) ∧
    (sp.map (fixed name) = none → sp.cnt < 2048)
  | .get ext name _ =>
    fixed name ≠ tomb ∧ ext ∈ exts ∧
    ∀ f, sp.map (fixed name) = some f →
      (∃ d ∈ f.l, d.n ≠ 0) ∧ (lastUsed f.l (ext % 10) → f.dtype = ext)
  | .delete name => fixed name ≠ tomb
  | .rename old new => fixed old ≠ tomb ∧ fixed new ≠ tomb
  | .getmeta name => fixed name ≠ tomb
  | .update name m => fixed name ≠ tomb ∧ m.l.length = 4

/-! ### The directory represents the map -/

def fieldOf (e : Entry) (ad : Nat) : Field := ⟨e.dtype, e.l, noKey e.a, ad⟩

/-- Variable `n` of the directory. -/
def Has (s : S) (n : Name) (f : Field) : Prop :=
  ∃ (i : Nat) (e : Entry) (ad : Nat), s.dir[i]? = some e ∧ e.name = n ∧ pointer s e.dtype e.pti = some (some ad) ∧
    f = fieldOf e ad

/-- What every reachable state satisfies. -/
structure Inv (s : S) : Prop where
  cur0 : s.dir = [] → s.cur = 0
  len4 : ∀ (i : Nat) e, s.dir[i]? = some e → e.l.length = 4
  uniq : ∀ (i j : Nat) e e', s.dir[i]? = some e → s.dir[j]? = some e' → e.name = e'.name →
    e.name ≠ tomb → i = j
  own : ∀ (i : Nat) e, s.dir[i]? = some e → e.name ≠ tomb → e.dtype ∈ exts ∧
    ∃ ad arr, pointer s e.dtype e.pti = some (some ad) ∧ s.heap[ad]? = some (some arr)
  sep : ∀ (i j : Nat) e e' ad, s.dir[i]? = some e → s.dir[j]? = some e' → e.name ≠ tomb →
    e'.name ≠ tomb → pointer s e.dtype e.pti = some (some ad) →
    pointer s e'.dtype e'.pti = some (some ad) → i = j
  key : ∀ (i : Nat) e, s.dir[i]? = some e → e.name ≠ tomb → e.a.key = keyOf i e.dtype
  dead : ∀ (i : Nat) e, s.dir[i]? = some e → e.name = tomb → e.a = nullAttr

structure Rel (s : S) (sp : Spec) : Prop where
  inv : Inv s
  heap : sp.heap = s.heap
  cnt : sp.cnt = s.dir.length
  map : ∀ n, n ≠ tomb → ∀ f, sp.map n = some f ↔ Has s n f

theorem find_live {s : S} (h : Inv s) {i : Nat} {e : Entry} {name : Name}
    (hi : s.dir[i]? = some e) (hn : e.name = fixed name) (ht : fixed name ≠ tomb) :
    find name s = ({ s with cur := i + 1 }, keyOf i e.dtype) := by
  have hf : s.dir.findIdx? (fun e => e.name == fixed name) = some i := by
    rw [List.findIdx?_eq_some_iff_getElem]
    obtain ⟨hlt, he⟩ := List.getElem?_eq_some_iff.1 hi
    refine ⟨hlt, by rw [he]; simpa using hn, fun j hj hjn => ?_⟩
    have hj' : s.dir[j]? = some s.dir[j] := List.getElem?_eq_getElem _
    have := h.uniq j i _ e hj' hi (by simp at hjn; rw [hjn, hn]) (by simp at hjn; rw [hjn]; exact ht)
    omega
  have hk := h.key i e hi (by rw [hn]; exact ht)
  simp [find, hf, hi, hk]

theorem find_none {s : S} {name : Name}
    (hn : ∀ (i : Nat) e, s.dir[i]? = some e → e.name ≠ fixed name) :
    find name s = ({ s with cur := 0 }, -2) := by
  have hf : s.dir.findIdx? (fun e => e.name == fixed name) = none := by
    rw [List.findIdx?_eq_none_iff]
    intro e he
    obtain ⟨i, hi⟩ := List.getElem?_of_mem he
    simpa using hn i e hi
  simp [find, hf]

theorem exts_pos {t : Nat} (h : t ∈ exts) : 141 ≤ t ∧ t ≤ 384 ∧ 1 ≤ rank t ∧ rank t ≤ 4 := by
  simp only [exts, List.mem_cons, List.not_mem_nil, or_false] at h
  rcases h with h | h | h | h | h | h | h | h | h | h | h | h | h | h | h | h | h | h | h | h <;>
    subst h <;> decide

theorem locate_eq {s : S} (h : Inv s) (name : Name) :
    locate name s = some (find name s).1 := by
  have hfc : ∀ c, (find name { s with cur := c }).1 = (find name s).1 := by
    intro c
    simp only [find]
  unfold locate check
  by_cases hc : s.cur = 0
  · simp [hc]
  · rw [if_neg hc]
    cases hd : s.dir with
    | nil => exact absurd (h.cur0 hd) hc
    | cons e es =>
      have h0 : s.dir[0]? = some e := by rw [hd]; rfl
      have hk : ¬ (e.a.key = 0 ∧ e.name = fixed name) := by
        rintro ⟨hk, -⟩
        by_cases ht : e.name = tomb
        · rw [h.dead 0 e h0 ht] at hk
          exact absurd hk (by decide)
        · rw [h.key 0 e h0 ht] at hk
          have := (exts_pos (h.own 0 e h0 ht).1).1
          simp only [keyOf] at hk
          omega
      simp only [if_neg hk]
      have := hfc 0
      rw [hd] at this
      simp [this]

/-- In a related state a name is either absent or at one place. -/
theorem lookup {s : S} {sp : Spec} (h : Rel s sp) {name : Name} (ht : fixed name ≠ tomb) :
    (sp.map (fixed name) = none ∧ find name s = ({ s with cur := 0 }, -2) ∧
      ∀ (i : Nat) e, s.dir[i]? = some e → e.name ≠ fixed name) ∨
    (∃ (i : Nat) (e : Entry) (ad : Nat) (arr : Arr), s.dir[i]? = some e ∧ e.name = fixed name ∧
      pointer s e.dtype e.pti = some (some ad) ∧ s.heap[ad]? = some (some arr) ∧
      sp.map (fixed name) = some (fieldOf e ad) ∧
      find name s = ({ s with cur := i + 1 }, keyOf i e.dtype)) := by
  by_cases hx : ∃ (i : Nat) (e : Entry), s.dir[i]? = some e ∧ e.name = fixed name
  · obtain ⟨i, e, hi, hn⟩ := hx
    obtain ⟨-, ad, arr, hp, ha⟩ := h.inv.own i e hi (by rw [hn]; exact ht)
    exact Or.inr ⟨i, e, ad, arr, hi, hn, hp, ha,
      (h.map _ ht _).2 ⟨i, e, ad, hi, hn, hp, rfl⟩, find_live h.inv hi hn ht⟩
  · have hn : ∀ (i : Nat) e, s.dir[i]? = some e → e.name ≠ fixed name :=
      fun i e hi hne => hx ⟨i, e, hi, hne⟩
    refine Or.inl ⟨?_, find_none hn, hn⟩
    cases hm : sp.map (fixed name) with
    | none => rfl
    | some f =>
      obtain ⟨i, e, ad, hi, hne, -⟩ := (h.map _ ht _).1 hm
      exact absurd hne (hn i e hi)

/-- Moving the cursor changes nothing. -/
theorem Rel.cursor {s : S} {sp : Spec} (h : Rel s sp) (c : Nat) (hc : s.dir = [] → c = 0) :
    Rel { s with cur := c } sp :=
  ⟨⟨hc, h.inv.len4, h.inv.uniq, h.inv.own, h.inv.sep, h.inv.key, h.inv.dead⟩, h.heap, h.cnt,
    fun n hn f => h.map n hn f⟩

theorem getElem?_set_cases {α : Type} {l : List α} {i : Nat} {a x : α} {j : Nat}
    (hi : i < l.length) (h : (l.set i a)[j]? = some x) :
    (j = i ∧ x = a) ∨ (j ≠ i ∧ l[j]? = some x) := by
  by_cases hj : j = i
  · subst hj
    rw [List.getElem?_set_self hi] at h
    exact Or.inl ⟨rfl, (Option.some.inj h).symm⟩
  · rw [List.getElem?_set_ne (Ne.symm hj)] at h
    exact Or.inr ⟨hj, h⟩

/-- Replacing an entry by another one with the same array. -/
theorem set_entry {s : S} {sp : Spec} (h : Rel s sp) {i : Nat} {e e' : Entry} {ad : Nat}
    (hi : s.dir[i]? = some e) (hn : e.name ≠ tomb)
    (hp : pointer s e.dtype e.pti = some (some ad))
    (hd : e'.dtype = e.dtype) (hpti : e'.pti = e.pti) (hk : e'.a.key = e.a.key)
    (hl : e'.l.length = 4) (hn' : e'.name ≠ tomb)
    (hfresh : ∀ (j : Nat) e2, s.dir[j]? = some e2 → e2.name = e'.name → j = i) :
    Rel { s with dir := s.dir.set i e', cur := i + 1 }
      { sp with map := put (del sp.map e.name) e'.name (fieldOf e' ad) } := by
  have hlt : i < s.dir.length := (List.getElem?_eq_some_iff.1 hi).1
  have hself : (s.dir.set i e')[i]? = some e' := List.getElem?_set_self hlt
  have hp' : pointer s e'.dtype e'.pti = some (some ad) := by rw [hd, hpti]; exact hp
  constructor
  · constructor
    · intro hnil
      have : (s.dir.set i e').length = 0 := by
        have : (s.dir.set i e') = [] := hnil
        rw [this]; rfl
      simp at this
      rw [this] at hlt
      simp at hlt
    · intro j x hj
      rcases getElem?_set_cases hlt hj with ⟨-, rfl⟩ | ⟨-, hj⟩
      · exact hl
      · exact h.inv.len4 j x hj
    · intro j k x y hj hk' hxy hx
      rcases getElem?_set_cases hlt hj with ⟨rfl, rfl⟩ | ⟨hji, hj2⟩ <;>
        rcases getElem?_set_cases hlt hk' with ⟨rfl, rfl⟩ | ⟨hki, hk2⟩
      · rfl
      · exact absurd (hfresh k y hk2 hxy.symm) hki
      · exact absurd (hfresh j x hj2 hxy) hji
      · exact h.inv.uniq j k x y hj2 hk2 hxy hx
    · intro j x hj hx
      rcases getElem?_set_cases hlt hj with ⟨rfl, rfl⟩ | ⟨hji, hj⟩
      · have := h.inv.own _ e hi hn
        rw [hd, hpti]; exact this
      · exact h.inv.own j x hj hx
    · intro j k x y a hj hk' hx hy hpx hpy
      have hpx : pointer s x.dtype x.pti = some (some a) := hpx
      have hpy : pointer s y.dtype y.pti = some (some a) := hpy
      rcases getElem?_set_cases hlt hj with ⟨rfl, rfl⟩ | ⟨hji, hj2⟩ <;>
        rcases getElem?_set_cases hlt hk' with ⟨rfl, rfl⟩ | ⟨hki, hk2⟩
      · rfl
      · rw [hd, hpti] at hpx
        exact h.inv.sep _ _ e y a hi hk2 hn hy hpx hpy
      · rw [hd, hpti] at hpy
        exact h.inv.sep _ _ x e a hj2 hi hx hn hpx hpy
      · exact h.inv.sep j k x y a hj2 hk2 hx hy hpx hpy
    · intro j x hj hx
      rcases getElem?_set_cases hlt hj with ⟨rfl, rfl⟩ | ⟨hji, hj⟩
      · rw [hk, hd]; exact h.inv.key _ e hi hn
      · exact h.inv.key j x hj hx
    · intro j x hj hx
      rcases getElem?_set_cases hlt hj with ⟨rfl, rfl⟩ | ⟨hji, hj⟩
      · exact absurd hx hn'
      · exact h.inv.dead j x hj hx
  · exact h.heap
  · simpa using h.cnt
  · intro n hnt f
    show put (del sp.map e.name) e'.name (fieldOf e' ad) n = some f ↔ _
    unfold put del
    constructor
    · intro hf
      split at hf
      · rename_i hne
        exact ⟨i, e', ad, hself, hne.symm, hp', (Option.some.inj hf).symm⟩
      · rename_i hne
        split at hf
        · exact absurd hf (by simp)
        · rename_i hne2
          obtain ⟨j, x, a, hj, hx, hpx, hf⟩ := (h.map n hnt f).1 hf
          have hji : j ≠ i := by
            rintro rfl
            rw [hi] at hj
            obtain rfl := Option.some.inj hj
            exact hne2 hx.symm
          exact ⟨j, x, a, by
            show (s.dir.set i e')[j]? = some x
            rw [List.getElem?_set_ne (Ne.symm hji)]; exact hj, hx, hpx, hf⟩
    · rintro ⟨j, x, a, hj, hx, hpx, hf⟩
      have hpx2 : pointer s x.dtype x.pti = some (some a) := hpx
      rcases getElem?_set_cases hlt hj with ⟨rfl, rfl⟩ | ⟨hji, hj⟩
      · rw [if_pos hx.symm, hf]
        rw [hp'] at hpx2
        simp at hpx2
        rw [hpx2]
      · rw [if_neg (fun hne => hji (hfresh j x hj (by rw [hx, hne]))), if_neg (fun hne => ?_)]
        · exact (h.map n hnt f).2 ⟨j, x, a, hj, hx, hpx2, hf⟩
        · exact hji (h.inv.uniq j i x e hj hi (by rw [hx, hne]) (by rw [hx]; exact hnt))

theorem pointer_add {s : S} {t k d : Nat} {p q : Option Nat} {dir : List Entry} {c : Nat}
    {hp : List (Option Arr)} {r : Bool} (h : pointer s t k = some q) :
    pointer ⟨dir, c, fun u => if u = d then s.ptrs d ++ [p] else s.ptrs u, hp, r⟩ t k
      = some q := by
  unfold pointer at h ⊢
  split at h
  · exact absurd h (by simp)
  · rename_i hk
    rw [if_neg hk]
    show (if t = d then s.ptrs d ++ [p] else s.ptrs t)[k - 1]? = some q
    by_cases htd : t = d
    · subst htd
      rw [if_pos rfl]
      have hlt := (List.getElem?_eq_some_iff.1 h).1
      rw [List.getElem?_append_left hlt]
      exact h
    · rw [if_neg htd]
      exact h

theorem pointer_new {s : S} {d : Nat} {p : Option Nat} {dir : List Entry} {c : Nat}
    {hp : List (Option Arr)} {r : Bool} :
    pointer ⟨dir, c, fun u => if u = d then s.ptrs d ++ [p] else s.ptrs u, hp, r⟩ d
      ((s.ptrs d).length + 1) = some p := by
  simp [pointer]

theorem getElem?_append_cases {α : Type} {l : List α} {a x : α} {j : Nat}
    (h : (l ++ [a])[j]? = some x) : (j = l.length ∧ x = a) ∨ (j < l.length ∧ l[j]? = some x) := by
  by_cases hj : j < l.length
  · rw [List.getElem?_append_left hj] at h
    exact Or.inr ⟨hj, h⟩
  · have hlt := (List.getElem?_eq_some_iff.1 h).1
    simp at hlt
    have : j = l.length := by omega
    subst this
    simp at h
    exact Or.inl ⟨rfl, h.symm⟩

/-- Adding a variable. -/
theorem add_entry {s : S} {sp : Spec} (h : Rel s sp) {e : Entry} {ad c : Nat}
    {heap' : List (Option Arr)} {r : Bool} (hn : e.name ≠ tomb)
    (hfresh : ∀ (j : Nat) x, s.dir[j]? = some x → x.name ≠ e.name)
    (hd : e.dtype ∈ exts) (hpti : e.pti = (s.ptrs e.dtype).length + 1)
    (hk : e.a.key = keyOf s.dir.length e.dtype) (hl : e.l.length = 4)
    (hown : ∀ (j : Nat) x, s.dir[j]? = some x → x.name ≠ tomb →
      pointer s x.dtype x.pti ≠ some (some ad))
    (hheap : ∀ (a : Nat) arr, s.heap[a]? = some (some arr) →
      ∃ arr', heap'[a]? = some (some arr'))
    (had : ∃ arr, heap'[ad]? = some (some arr)) :
    Rel ⟨s.dir ++ [e], c,
        fun t => if t = e.dtype then s.ptrs e.dtype ++ [some ad] else s.ptrs t, heap', r⟩
      ⟨put sp.map e.name (fieldOf e ad), heap', sp.cnt + 1⟩ := by
  have hpe : ∀ (dir : List Entry), pointer ⟨dir, c,
        fun t => if t = e.dtype then s.ptrs e.dtype ++ [some ad] else s.ptrs t, heap', r⟩
        e.dtype e.pti = some (some ad) := by
    intro dir
    rw [hpti]; exact pointer_new
  have hlive : ∀ (j : Nat) x, s.dir[j]? = some x → x.name ≠ tomb →
      ∃ a arr, pointer s x.dtype x.pti = some (some a) ∧ s.heap[a]? = some (some arr) :=
    fun j x hj hx => (h.inv.own j x hj hx).2
  constructor
  · constructor
    · intro hnil
      have hnil : s.dir ++ [e] = [] := hnil
      simp at hnil
    · intro j x hj
      rcases getElem?_append_cases hj with ⟨-, rfl⟩ | ⟨-, hj2⟩
      · exact hl
      · exact h.inv.len4 j x hj2
    · intro j k x y hj hk' hxy hx
      rcases getElem?_append_cases hj with ⟨h1, h2⟩ | ⟨hji, hj2⟩ <;>
        rcases getElem?_append_cases hk' with ⟨h3, h4⟩ | ⟨hki, hk2⟩
      · rw [h1, h3]
      · exact absurd (by rw [← hxy, h2]) (hfresh k y hk2)
      · exact absurd (by rw [hxy, h4]) (hfresh j x hj2)
      · exact h.inv.uniq j k x y hj2 hk2 hxy hx
    · intro j x hj hx
      rcases getElem?_append_cases hj with ⟨h1, rfl⟩ | ⟨hji, hj2⟩
      · obtain ⟨arr, harr⟩ := had
        exact ⟨hd, ad, arr, hpe _, harr⟩
      · obtain ⟨hx1, a, arr, hpa, harr⟩ := h.inv.own j x hj2 hx
        obtain ⟨arr', harr'⟩ := hheap a arr harr
        exact ⟨hx1, a, arr', pointer_add hpa, harr'⟩
    · intro j k x y a hj hk' hx hy hpx hpy
      rcases getElem?_append_cases hj with ⟨h1, h2⟩ | ⟨hji, hj2⟩ <;>
        rcases getElem?_append_cases hk' with ⟨h3, h4⟩ | ⟨hki, hk2⟩
      · rw [h1, h3]
      · obtain ⟨b, arr, hpb, -⟩ := hlive k y hk2 hy
        rw [pointer_add hpb] at hpy
        rw [h2, hpe] at hpx
        simp at hpx hpy
        exact absurd (by rw [hpb, hpy, hpx]) (hown k y hk2 hy)
      · obtain ⟨b, arr, hpb, -⟩ := hlive j x hj2 hx
        rw [pointer_add hpb] at hpx
        rw [h4, hpe] at hpy
        simp at hpx hpy
        exact absurd (by rw [hpb, hpx, hpy]) (hown j x hj2 hx)
      · obtain ⟨b, arr, hpb, -⟩ := hlive j x hj2 hx
        obtain ⟨b', arr', hpb', -⟩ := hlive k y hk2 hy
        rw [pointer_add hpb] at hpx
        rw [pointer_add hpb'] at hpy
        exact h.inv.sep j k x y a hj2 hk2 hx hy (hpb.trans hpx) (hpb'.trans hpy)
    · intro j x hj hx
      rcases getElem?_append_cases hj with ⟨h1, rfl⟩ | ⟨hji, hj2⟩
      · rw [hk, h1]
      · exact h.inv.key j x hj2 hx
    · intro j x hj hx
      rcases getElem?_append_cases hj with ⟨h1, rfl⟩ | ⟨hji, hj2⟩
      · exact absurd hx hn
      · exact h.inv.dead j x hj2 hx
  · rfl
  · show sp.cnt + 1 = (s.dir ++ [e]).length
    rw [h.cnt]; simp
  · intro n hnt f
    show put sp.map e.name (fieldOf e ad) n = some f ↔ _
    unfold put
    constructor
    · intro hf
      split at hf
      · rename_i hne
        exact ⟨s.dir.length, e, ad, by simp, hne.symm, hpe _, (Option.some.inj hf).symm⟩
      · obtain ⟨j, x, a, hj, hx, hpx, hf⟩ := (h.map n hnt f).1 hf
        have hlt := (List.getElem?_eq_some_iff.1 hj).1
        exact ⟨j, x, a, by
          show (s.dir ++ [e])[j]? = some x
          rw [List.getElem?_append_left hlt]; exact hj, hx, pointer_add hpx, hf⟩
    · rintro ⟨j, x, a, hj, hx, hpx, hf⟩
      rcases getElem?_append_cases hj with ⟨h1, h2⟩ | ⟨hji, hj2⟩
      · rw [h2] at hx hf hpx
        rw [hpe] at hpx
        simp at hpx
        rw [if_pos hx.symm, hf, hpx]
      · obtain ⟨b, arr, hpb, -⟩ := hlive j x hj2 (by rw [hx]; exact hnt)
        rw [pointer_add hpb] at hpx
        rw [if_neg (fun hne => hfresh j x hj2 (by rw [hx, hne]))]
        exact (h.map n hnt f).2 ⟨j, x, a, hj2, hx, hpb.trans hpx, hf⟩

theorem pointer_clear {s : S} {t k d q : Nat} {dir : List Entry} {c : Nat}
    {hp : List (Option Arr)} {r : Bool} (hne : ¬ (t = d ∧ k = q)) (hq : q ≠ 0) :
    pointer ⟨dir, c, fun u => if u = d then (s.ptrs u).set (q - 1) none else s.ptrs u, hp, r⟩ t k
      = pointer s t k := by
  unfold pointer
  by_cases hk : k = 0
  · rw [if_pos hk, if_pos hk]
  · rw [if_neg hk, if_neg hk]
    show (if t = d then (s.ptrs t).set (q - 1) none else s.ptrs t)[k - 1]? = _
    by_cases htd : t = d
    · rw [if_pos htd, List.getElem?_set_ne]
      intro h
      exact hne ⟨htd, by omega⟩
    · rw [if_neg htd]

theorem pointer_pos {s : S} {t k : Nat} {p : Option Nat} (h : pointer s t k = some p) : k ≠ 0 := by
  rintro rfl
  simp [pointer] at h

/-- Removing a variable. -/
theorem del_entry {s : S} {sp : Spec} (h : Rel s sp) {i : Nat} {e e' : Entry} {ad c : Nat}
    (hi : s.dir[i]? = some e) (hn : e.name ≠ tomb)
    (hp : pointer s e.dtype e.pti = some (some ad))
    (hn' : e'.name = tomb) (hl : e'.l.length = 4) (ha : e'.a = nullAttr) :
    Rel ⟨s.dir.set i e', c, fun t => if t = e.dtype then (s.ptrs t).set (e.pti - 1) none
        else s.ptrs t, s.heap.set ad none, s.restart⟩
      { sp with map := del sp.map e.name, heap := sp.heap.set ad none } := by
  have hlt : i < s.dir.length := (List.getElem?_eq_some_iff.1 hi).1
  have hq : e.pti ≠ 0 := pointer_pos hp
  have hkeep : ∀ (j : Nat) x (dir : List Entry), s.dir[j]? = some x → x.name ≠ tomb → j ≠ i →
      pointer ⟨dir, c, fun t => if t = e.dtype then (s.ptrs t).set (e.pti - 1) none
        else s.ptrs t, s.heap.set ad none, s.restart⟩ x.dtype x.pti
        = pointer s x.dtype x.pti := by
    intro j x dir hj hx hji
    apply pointer_clear _ hq
    rintro ⟨h1, h2⟩
    exact hji (h.inv.sep j i x e ad hj hi hx hn (by rw [h1, h2]; exact hp) hp)
  constructor
  · constructor
    · intro hnil
      have hnil : s.dir.set i e' = [] := hnil
      simp at hnil
      rw [hnil] at hlt
      simp at hlt
    · intro j x hj
      rcases getElem?_set_cases hlt hj with ⟨-, rfl⟩ | ⟨-, hj2⟩
      · exact hl
      · exact h.inv.len4 j x hj2
    · intro j k x y hj hk' hxy hx
      rcases getElem?_set_cases hlt hj with ⟨h1, h2⟩ | ⟨hji, hj2⟩
      · exact absurd (by rw [h2, hn']) hx
      · rcases getElem?_set_cases hlt hk' with ⟨h3, h4⟩ | ⟨hki, hk2⟩
        · exact absurd (by rw [hxy, h4, hn']) hx
        · exact h.inv.uniq j k x y hj2 hk2 hxy hx
    · intro j x hj hx
      rcases getElem?_set_cases hlt hj with ⟨h1, h2⟩ | ⟨hji, hj2⟩
      · exact absurd (by rw [h2, hn']) hx
      · obtain ⟨hx1, a, arr, hpa, harr⟩ := h.inv.own j x hj2 hx
        refine ⟨hx1, a, arr, (hkeep j x _ hj2 hx hji).trans hpa, ?_⟩
        show (s.heap.set ad none)[a]? = _
        rw [List.getElem?_set_ne]
        · exact harr
        · rintro rfl
          exact hji (h.inv.sep j i x e _ hj2 hi hx hn hpa hp)
    · intro j k x y a hj hk' hx hy hpx hpy
      rcases getElem?_set_cases hlt hj with ⟨h1, h2⟩ | ⟨hji, hj2⟩
      · exact absurd (by rw [h2, hn']) hx
      · rcases getElem?_set_cases hlt hk' with ⟨h3, h4⟩ | ⟨hki, hk2⟩
        · exact absurd (by rw [h4, hn']) hy
        · rw [hkeep j x _ hj2 hx hji] at hpx
          rw [hkeep k y _ hk2 hy hki] at hpy
          exact h.inv.sep j k x y a hj2 hk2 hx hy hpx hpy
    · intro j x hj hx
      rcases getElem?_set_cases hlt hj with ⟨h1, h2⟩ | ⟨hji, hj2⟩
      · exact absurd (by rw [h2, hn']) hx
      · exact h.inv.key j x hj2 hx
    · intro j x hj hx
      rcases getElem?_set_cases hlt hj with ⟨h1, h2⟩ | ⟨hji, hj2⟩
      · rw [h2]; exact ha
      · exact h.inv.dead j x hj2 hx
  · show sp.heap.set ad none = s.heap.set ad none
    rw [h.heap]
  · show sp.cnt = (s.dir.set i e').length
    rw [List.length_set]; exact h.cnt
  · intro n hnt f
    show del sp.map e.name n = some f ↔ _
    unfold del
    constructor
    · intro hf
      split at hf
      · exact absurd hf (by simp)
      · rename_i hne
        obtain ⟨j, x, a, hj, hx, hpx, hf⟩ := (h.map n hnt f).1 hf
        have hji : j ≠ i := by
          rintro rfl
          rw [hi] at hj
          obtain rfl := Option.some.inj hj
          exact hne hx.symm
        exact ⟨j, x, a, by
          show (s.dir.set i e')[j]? = some x
          rw [List.getElem?_set_ne (Ne.symm hji)]; exact hj, hx,
          (hkeep j x _ hj (by rw [hx]; exact hnt) hji).trans hpx, hf⟩
    · rintro ⟨j, x, a, hj, hx, hpx, hf⟩
      rcases getElem?_set_cases hlt hj with ⟨h1, h2⟩ | ⟨hji, hj2⟩
      · exact absurd (by rw [← hx, h2, hn']) hnt
      · have hxt : x.name ≠ tomb := by rw [hx]; exact hnt
        rw [hkeep j x _ hj2 hxt hji] at hpx
        rw [if_neg (fun hne => hji (h.inv.uniq j i x e hj2 hi (by rw [hx, hne]) hxt))]
        exact (h.map n hnt f).2 ⟨j, x, a, hj2, hx, hpx, hf⟩

end Props.NamedArrays
