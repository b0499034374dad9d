/-
The restart file of the memory manager of named arrays (model: `Verif/Gmm.lean`).
-/
import Verif.Props.GmmMap

namespace Props.NamedArrays
open Gmm

/-! ### Arrays have the size their layout says -/

/-- Every array has as many elements as its bounds say, every variable an array of the size of
its layout, and the directory has not overflown. -/
structure Sized (sp : Spec) : Prop where
  arr : ∀ (ad : Nat) arr, sp.heap[ad]? = some (some arr) → arr.data.length = total arr.bounds
  fld : ∀ n f, n ≠ tomb → sp.map n = some f → f.dtype ∈ exts ∧ f.l.length = 4 ∧
    ∃ arr, sp.heap[f.ptr]? = some (some arr) ∧
      arr.bounds.map extent = (boundsOf f.dtype f.l).map extent
  cnt : sp.cnt ≤ 2048

theorem total_congr {a b : List (Int × Int)} (h : a.map extent = b.map extent) :
    total a = total b := by
  have : ∀ l : List (Int × Int), total l = ((l.map extent).map Int.toNat).prod := by
    intro l
    simp [total, List.map_map, Function.comp_def]
  rw [this, this, h]

theorem consistent_extents {ext : Nat} {arr : Arr} {l : List Dim}
    (h : consistent ext arr l = true) :
    arr.bounds.map extent = (boundsOf ext l).map extent := by
  have h : arr.bounds.map extent = (l.take (rank ext)).map fun d => d.high - d.low + 1 := by
    simpa [consistent] using h
  have h2 : (arr.bounds.map extent).map (fun x => max 0 x) = arr.bounds.map extent := by
    rw [List.map_map]
    apply List.map_congr_left
    intro b _
    simp only [Function.comp, extent]
    omega
  rw [← h2, h]
  simp [boundsOf, List.map_map, Function.comp_def, extent]

theorem bounds_pad {ext : Nat} {l : List Dim} (h : rank ext ≤ l.length) (k : Nat) :
    boundsOf ext (l.take (rank ext) ++ List.replicate k nullDim) = boundsOf ext l := by
  unfold boundsOf
  congr 1
  have hl : (l.take (rank ext)).length = rank ext := by simp; omega
  rw [List.take_append_of_le_length (by omega), List.take_of_length_le (by omega)]

theorem bounds_update {ext : Nat} {l k : List Dim} (h : l.length = k.length) :
    boundsOf ext (List.zipWith (fun d g => (⟨d.low, d.high, g.halo, g.halomax, g.n⟩ : Dim)) l k)
      = boundsOf ext l := by
  unfold boundsOf
  rw [List.take_zipWith]
  have : ∀ (a b : List Dim), a.length = b.length →
      (List.zipWith (fun d g => (⟨d.low, d.high, g.halo, g.halomax, g.n⟩ : Dim)) a b).map
        (fun d => (d.low, d.high)) = a.map fun d => (d.low, d.high) := by
    intro a
    induction a with
    | nil => intro b _; rfl
    | cons x a ih =>
      intro b hb
      cases b with
      | nil => simp at hb
      | cons y b => simp [ih b (by simpa using hb)]
  exact this _ _ (by simp [h])

theorem sized_empty : Sized empty :=
  ⟨fun ad arr h => by simp [empty] at h, fun n f _ h => by simp [empty] at h, by decide⟩

theorem sized_step {s : S} {sp : Spec} (h : Rel s sp) (hz : Sized sp) (op : Op)
    (hpre : Pre sp op) : Sized (sstep sp op).1 := by
  have hlt : ∀ n f, n ≠ tomb → sp.map n = some f → f.ptr < sp.heap.length := by
    intro n f hn hf
    obtain ⟨-, -, arr, ha, -⟩ := hz.fld n f hn hf
    exact (List.getElem?_eq_some_iff.1 ha).1
  cases op with
  | alloc arr =>
    refine ⟨?_, ?_, hz.cnt⟩
    · intro ad x hx
      rcases getElem?_append_cases hx with ⟨-, hx⟩ | ⟨-, hx⟩
      · obtain rfl := Option.some.inj hx
        exact hpre
      · exact hz.arr ad x hx
    · intro n f hn hf
      obtain ⟨h1, h2, x, hx, he⟩ := hz.fld n f hn hf
      refine ⟨h1, h2, x, ?_, he⟩
      show (sp.heap ++ [some arr])[f.ptr]? = _
      rw [List.getElem?_append_left (hlt n f hn hf)]
      exact hx
  | store ad data =>
    refine ⟨?_, ?_, hz.cnt⟩
    · intro a x hx
      have hx : (sp.heap.modify ad (·.map fun arr => { arr with data := data }))[a]?
        = some (some x) := hx
      rw [List.getElem?_modify] at hx
      by_cases had : ad = a
      · subst had
        cases hh : sp.heap[ad]? with
        | none => simp [hh] at hx
        | some o =>
          cases o with
          | none => simp [hh] at hx
          | some y =>
            simp [hh] at hx
            rw [← hx]
            show data.length = total y.bounds
            rw [hpre y hh]
            exact hz.arr ad y hh
      · simp [had] at hx
        exact hz.arr a x hx
    · intro n f hn hf
      obtain ⟨h1, h2, x, hx, he⟩ := hz.fld n f hn hf
      refine ⟨h1, h2, if ad = f.ptr then { x with data := data } else x, ?_, ?_⟩
      · show (sp.heap.modify ad _)[f.ptr]? = _
        rw [List.getElem?_modify, hx]
        by_cases had : ad = f.ptr <;> simp [had]
      · split <;> exact he
  | create ext name p m junk nan =>
    obtain ⟨ht, hext, hl, hpp, hty, hcap⟩ := hpre
    obtain ⟨-, -, hr1, hr4⟩ := exts_pos hext
    have hpad := bounds_pad (ext := ext) (l := m.l) (by omega) (4 - rank ext)
    have hl4 : (m.l.take (rank ext) ++ List.replicate (4 - rank ext) nullDim).length = 4 := by
      simp [hl]; omega
    cases p with
    | none =>
      simp only [sstep, Option.any_none, Bool.false_eq_true, if_false]
      cases hm : sp.map (fixed name) with
      | none =>
        refine ⟨?_, ?_, ?_⟩
        · intro ad x hx
          rcases getElem?_append_cases hx with ⟨-, hx⟩ | ⟨-, hx⟩
          · obtain rfl := Option.some.inj hx
            simp
          · exact hz.arr ad x hx
        · intro n f hn hf
          have hf : put sp.map (fixed name) _ n = some f := hf
          unfold put at hf
          split at hf
          · obtain rfl := Option.some.inj hf
            refine ⟨hext, hl4, _, List.getElem?_concat_length, ?_⟩
            show (boundsOf ext m.l).map extent = (boundsOf ext _).map extent
            rw [← hpad]
            rfl
          · obtain ⟨h1, h2, x, hx, he⟩ := hz.fld n f hn hf
            refine ⟨h1, h2, x, ?_, he⟩
            show (sp.heap ++ [_])[f.ptr]? = _
            rw [List.getElem?_append_left (hlt n f hn hf)]
            exact hx
        · show sp.cnt + 1 ≤ 2048
          have := hcap hm
          omega
      | some g =>
        simp only
        split
        · exact hz
        · split
          · exact hz
          · refine ⟨hz.arr, ?_, hz.cnt⟩
            intro n f hn hf
            have hf : put sp.map (fixed name) _ n = some f := hf
            unfold put at hf
            split at hf
            · obtain rfl := Option.some.inj hf
              exact hz.fld (fixed name) g ht hm
            · exact hz.fld n f hn hf
    | some ad =>
      obtain ⟨⟨arr0, harr0⟩, hfree⟩ := hpp ad rfl
      have hlt0 := (List.getElem?_eq_some_iff.1 harr0).1
      have hfit : fits sp.heap ad ext m.l = consistent ext arr0 m.l := fits_eq harr0
      simp only [sstep, Option.any_some, hfit]
      split
      · exact hz
      · rename_i hc
        have hc : consistent ext arr0 m.l = true := by simpa using hc
        cases hm : sp.map (fixed name) with
        | some g => exact hz
        | none =>
          have hmod := modify_eq_set (f := fun o : Option Arr => o.map fun arr =>
            { arr with data := arr.data.map (start m.a.flags nan id) }) harr0
          refine ⟨?_, ?_, ?_⟩
          · intro a x hx
            have hx : (sp.heap.modify ad _)[a]? = some (some x) := hx
            rw [hmod] at hx
            rcases getElem?_set_cases hlt0 hx with ⟨-, hx⟩ | ⟨-, hx⟩
            · obtain rfl := Option.some.inj hx
              simpa using hz.arr ad arr0 harr0
            · exact hz.arr a x hx
          · intro n f hn hf
            have hf : put sp.map (fixed name) _ n = some f := hf
            unfold put at hf
            split at hf
            · obtain rfl := Option.some.inj hf
              refine ⟨hext, hl4, { arr0 with data := arr0.data.map (start m.a.flags nan id) }, ?_, ?_⟩
              · show (sp.heap.modify ad _)[ad]? = _
                rw [hmod, List.getElem?_set_self hlt0]
                rfl
              · show arr0.bounds.map extent = (boundsOf ext _).map extent
                rw [consistent_extents hc, ← hpad]
                rfl
            · obtain ⟨h1, h2, x, hx, he⟩ := hz.fld n f hn hf
              refine ⟨h1, h2, x, ?_, he⟩
              show (sp.heap.modify ad _)[f.ptr]? = _
              rw [hmod, List.getElem?_set_ne (fun hx => hfree n f hn hf hx.symm)]
              exact hx
          · show sp.cnt + 1 ≤ 2048
            have := hcap hm
            omega
  | get ext name junk =>
    simp only [sstep]
    split
    · exact hz
    · split <;> exact hz
  | delete name =>
    simp only [sstep]
    split
    · exact hz
    · rename_i g hg
      refine ⟨?_, ?_, hz.cnt⟩
      · intro a x hx
        have hx : (sp.heap.set g.ptr none)[a]? = some (some x) := hx
        rcases getElem?_set_cases (hlt (fixed name) g hpre hg) hx with ⟨-, hx⟩ | ⟨-, hx⟩
        · simp at hx
        · exact hz.arr a x hx
      · intro n f hn hf
        have hf : del sp.map (fixed name) n = some f := hf
        unfold del at hf
        split at hf
        · simp at hf
        · rename_i hne
          obtain ⟨h1, h2, x, hx, he⟩ := hz.fld n f hn hf
          refine ⟨h1, h2, x, ?_, he⟩
          show (sp.heap.set g.ptr none)[f.ptr]? = _
          rw [List.getElem?_set_ne (fun hx => hne (h.apart hn hpre hf hg hx.symm))]
          exact hx
  | rename old new =>
    simp only [sstep]
    split
    · rename_i f0 hf0 _
      refine ⟨hz.arr, ?_, hz.cnt⟩
      intro n f hn hf
      have hf : put (del sp.map (fixed old)) (fixed new) f0 n = some f := hf
      unfold put del at hf
      split at hf
      · obtain rfl := Option.some.inj hf
        exact hz.fld (fixed old) f0 hpre.1 hf0
      · split at hf
        · simp at hf
        · exact hz.fld n f hn hf
    · exact hz
  | getmeta name =>
    simp only [sstep]
    split <;> exact hz
  | update name m =>
    simp only [sstep]
    split
    · exact hz
    · rename_i g hg
      refine ⟨hz.arr, ?_, hz.cnt⟩
      intro n f hn hf
      have hf : put sp.map (fixed name) _ n = some f := hf
      unfold put at hf
      split at hf
      · obtain rfl := Option.some.inj hf
        obtain ⟨h1, h2, x, hx, he⟩ := hz.fld (fixed name) g hpre.1 hg
        refine ⟨h1, by simp [h2, hpre.2], x, hx, ?_⟩
        rw [he]
        show _ = (boundsOf g.dtype _).map extent
        rw [bounds_update (by rw [h2, hpre.2])]
      · exact hz.fld n f hn hf

theorem sized_run : ∀ (ops : List Op) {s : S} {sp : Spec}, Rel s sp → Sized sp → Allowed sp ops →
    Sized (srun sp ops).1
  | [], _, _, _, hz, _ => hz
  | op :: ops, s, sp, h, hz, ha => by
    obtain ⟨s1, hs, h1⟩ := sim h op ha.1
    exact sized_run ops h1 (sized_step h hz op ha.1) ha.2

/-! ### Writing -/

theorem mapM_some {α β : Type} {f : α → Option β} {g : α → β} :
    ∀ {l : List α}, (∀ x ∈ l, f x = some (g x)) → l.mapM f = some (l.map g)
  | [], _ => rfl
  | x :: l, h => by
    rw [List.mapM_cons, h x (List.mem_cons_self ..),
      mapM_some (fun y hy => h y (List.mem_cons_of_mem _ hy))]
    rfl

theorem flat_perm {α : Type} (q : α → Bool) (d : α → Nat) (l : List α) :
    ∀ ts : List Nat, ts.Nodup →
      List.Perm (ts.flatMap fun t => l.filter fun x => q x && decide (d x = t))
        (l.filter fun x => q x && decide (d x ∈ ts))
  | [], _ => by simp
  | t :: ts, h => by
    rw [List.nodup_cons] at h
    have h1 := List.filter_append_perm (fun x => decide (d x = t))
      (l.filter fun x => q x && decide (d x ∈ t :: ts))
    rw [List.filter_filter, List.filter_filter] at h1
    have e1 : (l.filter fun a => decide (d a = t) && (q a && decide (d a ∈ t :: ts)))
        = l.filter fun x => q x && decide (d x = t) := by
      apply List.filter_congr
      intro x _
      by_cases hx : d x = t <;> simp [hx]
    have e2 : (l.filter fun a => !decide (d a = t) && (q a && decide (d a ∈ t :: ts)))
        = l.filter fun x => q x && decide (d x ∈ ts) := by
      apply List.filter_congr
      intro x _
      by_cases hx : d x = t
      · have : d x ∉ ts := by rw [hx]; exact h.1
        simp [hx, h.1]
      · simp [hx]
    rw [e1, e2] at h1
    rw [List.flatMap_cons]
    exact (List.Perm.append_left _ (flat_perm q d l ts h.2)).trans h1

/-- The record of a variable. -/
def recOf (s : S) (e : Entry) : Rec :=
  ⟨e.dtype, e.name, e.l.take (rank e.dtype), { e.a with flags := e.a.flags &&& 15 }, e.dtype,
    (((pointer s e.dtype e.pti).join.bind s.at).map (·.data)).getD []⟩

/-- The variables written to the restart file, in this order. -/
def saved (s : S) : List Entry :=
  exts.flatMap fun t => s.dir.filter fun e => decide (e.a.flags &&& 1 ≠ 0) && decide (e.dtype = t)

theorem bit0 (x : BitVec 32) : (x &&& 1 ≠ 0) ↔ x.getLsbD 0 = true := by
  have h : (1 : BitVec 32) = BitVec.twoPow 32 0 := by decide
  rw [h, BitVec.and_twoPow]
  cases x.getLsbD 0 <;> simp
  decide

theorem flagged_live {s : S} (h : Inv s) {i : Nat} {e : Entry} (hi : s.dir[i]? = some e)
    (hf : e.a.flags &&& 1 ≠ 0) : e.name ≠ tomb := by
  intro ht
  rw [h.dead i e hi ht] at hf
  exact hf (by decide)

theorem saved_perm {s : S} (h : Inv s) :
    List.Perm (saved s) (s.dir.filter fun e => decide (e.a.flags &&& 1 ≠ 0)) := by
  have h1 := flat_perm (fun e : Entry => decide (e.a.flags &&& 1 ≠ 0)) (·.dtype) s.dir exts
    (by decide)
  refine h1.trans (List.Perm.of_eq ?_)
  apply List.filter_congr
  intro e he
  obtain ⟨i, hi⟩ := List.getElem?_of_mem he
  by_cases hf : e.a.flags &&& 1 ≠ 0
  · have := (h.own i e hi (flagged_live h hi hf)).1
    simp [this]
  · simp only [hf, decide_false, Bool.false_and]

theorem write_eq {s : S} (h : Inv s) : checkpointWrite s = some ((saved s).map (recOf s)) := by
  have hw : ∀ t ∈ exts, writeType s t = some ((s.dir.filter fun e =>
      decide (e.a.flags &&& 1 ≠ 0) && decide (e.dtype = t)).map (recOf s)) := by
    intro t _
    unfold writeType
    have hfil : (s.dir.filter fun e => decide (e.a.flags &&& 1 ≠ 0 ∧ e.dtype = t))
        = s.dir.filter fun e => decide (e.a.flags &&& 1 ≠ 0) && decide (e.dtype = t) := by
      apply List.filter_congr
      intro e _
      exact Bool.decide_and _ _
    rw [hfil]
    apply mapM_some
    intro e he
    rw [List.mem_filter] at he
    obtain ⟨i, hi⟩ := List.getElem?_of_mem he.1
    simp only [Bool.and_eq_true, decide_eq_true_eq] at he
    obtain ⟨hm, hf, ht⟩ := he
    obtain ⟨-, ad, arr, hp, ha⟩ := h.own i e hi (flagged_live h hi hf)
    subst ht
    simp [writeRec, recOf, hp, S.at, ha]
  unfold checkpointWrite
  rw [mapM_some hw]
  simp only [Option.map_some, saved, List.flatMap, List.map_flatten, List.map_map]
  rfl

/-! ### Reading -/

/-- What reading one record does to the map. -/
def fieldRec (r : Rec) (ad : Nat) : Field :=
  ⟨r.dtype, r.l ++ List.replicate (4 - rank r.ext) nullDim,
    noKey { r.a with flags := r.a.flags ||| 16 }, ad⟩

def arrRec (r : Rec) : Arr := ⟨boundsOf r.ext r.l, r.data⟩

def sread (sp : Spec) (r : Rec) : Spec :=
  ⟨put sp.map r.name (fieldRec r sp.heap.length), sp.heap ++ [some (arrRec r)], sp.cnt + 1⟩

/-- A record as it is written. -/
structure GoodRec (r : Rec) : Prop where
  ext : r.ext ∈ exts
  dtype : r.dtype = r.ext
  len : r.l.length = rank r.ext
  data : r.data.length = total (boundsOf r.ext r.l)
  name : r.name ≠ tomb

theorem absent {s : S} {sp : Spec} (h : Rel s sp) {n : Name} (hn : n ≠ tomb)
    (hm : sp.map n = none) (i : Nat) (e : Entry) (hi : s.dir[i]? = some e) : e.name ≠ n := by
  intro he
  obtain ⟨-, ad, arr, hp, ha⟩ := h.inv.own i e hi (by rw [he]; exact hn)
  have := (h.map n hn _).2 ⟨i, e, ad, hi, he, hp, rfl⟩
  rw [hm] at this
  simp at this

theorem read_one {s : S} {sp : Spec} (h : Rel s sp) {r : Rec} (hg : GoodRec r)
    (hm : sp.map r.name = none) (hc : sp.cnt < 2048) :
    ∃ s', readRec r s = some s' ∧ Rel s' (sread sp r) := by
  have h1 : ¬ (s.dir.length ≥ 2048) := by rw [← h.cnt]; omega
  have h2 : ¬ (r.data.length < total (boundsOf r.ext r.l)) := by rw [hg.data]; omega
  have htake : r.l.take (rank r.ext) = r.l := List.take_of_length_le (by rw [hg.len]; omega)
  have hdata : r.data.take (total (boundsOf r.ext r.l)) = r.data :=
    List.take_of_length_le (by rw [hg.data]; omega)
  obtain ⟨-, -, hr1, hr4⟩ := exts_pos hg.ext
  have hadd := add_entry h (e := ⟨r.l ++ List.replicate (4 - rank r.ext) nullDim,
      { r.a with key := keyOf s.dir.length r.ext, flags := r.a.flags ||| 16 }, r.dtype,
      (s.ptrs r.ext).length + 1, r.name⟩) (ad := s.heap.length) (c := s.dir.length + 1)
      (r := true) (heap' := s.heap ++ [some (arrRec r)]) hg.name
      (absent h hg.name hm) (by rw [hg.dtype]; exact hg.ext) (by rw [hg.dtype])
      (by rw [hg.dtype]) (by simp [hg.len]; omega)
      (fun j x hj hx hpx => by
        obtain ⟨-, a, arr, hpa, harr⟩ := h.inv.own j x hj hx
        rw [hpx] at hpa
        simp at hpa
        rw [← hpa] at harr
        simp at harr)
      (fun a arr harr => ⟨arr, by
        have hlt := (List.getElem?_eq_some_iff.1 harr).1
        rw [List.getElem?_append_left hlt]
        exact harr⟩)
      ⟨_, List.getElem?_concat_length⟩
  refine ⟨_, ?_, hadd.congr ?_⟩
  · simp only [readRec, hg.ext, not_true_eq_false, if_false, addEntry, if_neg h1,
      Option.bind_eq_bind, Option.bind_some, if_neg h2, Nat.add_sub_cancel, set_append_last,
      htake, hdata, hg.dtype]
    rfl
  · simp only [sread, h.heap]
    rfl

theorem read_all : ∀ (rs : List Rec) {s : S} {sp : Spec}, Rel s sp → (∀ r ∈ rs, GoodRec r) →
    (∀ r ∈ rs, sp.map r.name = none) → (rs.map (·.name)).Nodup → sp.cnt + rs.length ≤ 2048 →
    ∃ s', rs.foldlM (fun s r => readRec r s) s = some s' ∧ Rel s' (rs.foldl sread sp)
  | [], s, sp, h, _, _, _, _ => ⟨s, rfl, h⟩
  | r :: rs, s, sp, h, hg, hm, hd, hc => by
    rw [List.map_cons, List.nodup_cons] at hd
    have hc' : sp.cnt + (rs.length + 1) ≤ 2048 := hc
    obtain ⟨s1, he, h1⟩ := read_one h (hg r (List.mem_cons_self ..))
      (hm r (List.mem_cons_self ..)) (by omega)
    obtain ⟨s2, he2, h2⟩ := read_all rs h1 (fun x hx => hg x (List.mem_cons_of_mem _ hx))
      (fun x hx => by
        have hne : x.name ≠ r.name := fun hxr => hd.1 (List.mem_map.2 ⟨x, hx, hxr⟩)
        show put sp.map r.name _ x.name = none
        simp only [put, if_neg hne]
        exact hm x (List.mem_cons_of_mem _ hx))
      hd.2 (by show sp.cnt + 1 + rs.length ≤ 2048; omega)
    refine ⟨s2, ?_, h2⟩
    rw [List.foldlM_cons, he]
    exact he2

theorem sread_heap : ∀ (rs : List Rec) (sp : Spec) (ad : Nat) (o : Option Arr),
    sp.heap[ad]? = some o → (rs.foldl sread sp).heap[ad]? = some o
  | [], _, _, _, h => h
  | r :: rs, sp, ad, o, h => by
    apply sread_heap rs (sread sp r) ad o
    show (sp.heap ++ [_])[ad]? = _
    rw [List.getElem?_append_left (List.getElem?_eq_some_iff.1 h).1]
    exact h

theorem sread_other : ∀ (rs : List Rec) (sp : Spec) (n : Name), (∀ r ∈ rs, r.name ≠ n) →
    (rs.foldl sread sp).map n = sp.map n
  | [], _, _, _ => rfl
  | r :: rs, sp, n, h => by
    have h1 := sread_other rs (sread sp r) n (fun x hx => h x (List.mem_cons_of_mem _ hx))
    refine h1.trans ?_
    show put sp.map r.name _ n = _
    simp [put, (h r (List.mem_cons_self ..)).symm]

theorem sread_found : ∀ (rs : List Rec) (sp : Spec) (r : Rec), (rs.map (·.name)).Nodup →
    r ∈ rs → ∃ ad, (rs.foldl sread sp).map r.name = some (fieldRec r ad) ∧
      (rs.foldl sread sp).heap[ad]? = some (some (arrRec r))
  | [], _, _, _, h => by simp at h
  | x :: rs, sp, r, hd, h => by
    rw [List.map_cons, List.nodup_cons] at hd
    rcases List.mem_cons.1 h with rfl | h
    · refine ⟨sp.heap.length, ?_, ?_⟩
      · rw [List.foldl_cons, sread_other rs _ _ (fun y hy hyr =>
          hd.1 (List.mem_map.2 ⟨y, hy, hyr⟩))]
        simp [sread, put]
      · rw [List.foldl_cons]
        apply sread_heap
        exact List.getElem?_concat_length
    · exact sread_found rs (sread sp x) r hd.2 h

theorem bounds_take (ext : Nat) (l : List Dim) :
    boundsOf ext (l.take (rank ext)) = boundsOf ext l := by
  simp [boundsOf, List.take_take]

theorem nodup_names {s : S} (h : Inv s) :
    ((s.dir.filter fun e => decide (e.a.flags &&& 1 ≠ 0)).map (·.name)).Nodup := by
  have key : ∀ (l : List Entry), (∀ (i j : Nat) e e', l[i]? = some e → l[j]? = some e' →
      e.name = e'.name → e.name ≠ tomb → i = j) →
      (∀ e ∈ l, e.a.flags &&& 1 ≠ 0 → e.name ≠ tomb) →
      ((l.filter fun e => decide (e.a.flags &&& 1 ≠ 0)).map (·.name)).Nodup := by
    intro l
    induction l with
    | nil => intro _ _; simp
    | cons e l ih =>
      intro hu hl
      have ih' := ih (fun i j x y hi hj hxy hx => by
          have := hu (i + 1) (j + 1) x y (by simpa using hi) (by simpa using hj) hxy hx
          omega) (fun x hx => hl x (List.mem_cons_of_mem _ hx))
      by_cases hf : e.a.flags &&& 1 ≠ 0
      · rw [List.filter_cons_of_pos (by simpa using hf), List.map_cons, List.nodup_cons]
        refine ⟨?_, ih'⟩
        rw [List.mem_map]
        rintro ⟨x, hx, hxe⟩
        have hx := (List.mem_filter.1 hx).1
        obtain ⟨j, hj⟩ := List.getElem?_of_mem hx
        have := hu 0 (j + 1) e x rfl (by simpa using hj) hxe.symm
          (hl e (List.mem_cons_self ..) hf)
        omega
      · rw [List.filter_cons_of_neg (by simpa using hf)]
        exact ih'
  refine key s.dir h.uniq ?_
  intro e he hf
  obtain ⟨i, hi⟩ := List.getElem?_of_mem he
  exact flagged_live h hi hf

/-- A variable as it is after a restart. -/
def restored (f : Field) (ad : Nat) : Field :=
  ⟨f.dtype, f.l.take (f.dtype % 10) ++ List.replicate (4 - f.dtype % 10) ⟨0, 0, 0, 0, 0⟩,
    { f.a with flags := (f.a.flags &&& 15) ||| 16 }, ad⟩

theorem restart_rel {s : S} {sp : Spec} (h : Rel s sp) (hz : Sized sp) :
    ∃ file s' sp', checkpointWrite s = some file ∧ checkpointRead file init = some s' ∧
      Rel s' sp' ∧
      (∀ n f arr, n ≠ tomb → sp.map n = some f → f.a.flags.getLsbD 0 = true →
        sp.heap[f.ptr]? = some (some arr) →
        ∃ ad, sp'.map n = some (restored f ad) ∧
          sp'.heap[ad]? = some (some ⟨boundsOf f.dtype f.l, arr.data⟩)) ∧
      (∀ n, n ≠ tomb → (∀ f, sp.map n = some f → f.a.flags.getLsbD 0 = false) →
        sp'.map n = none) := by
  have hperm := saved_perm h.inv
  have hmem : ∀ e, e ∈ saved s ↔ e ∈ s.dir ∧ e.a.flags &&& 1 ≠ 0 := by
    intro e
    rw [hperm.mem_iff, List.mem_filter]
    simp
  have hgood : ∀ r ∈ (saved s).map (recOf s), GoodRec r := by
    intro r hr
    obtain ⟨e, he, rfl⟩ := List.mem_map.1 hr
    obtain ⟨hd, hf⟩ := (hmem e).1 he
    obtain ⟨i, hi⟩ := List.getElem?_of_mem hd
    have hlive := flagged_live h.inv hi hf
    obtain ⟨hext, ad, arr, hp, ha⟩ := h.inv.own i e hi hlive
    have hm := (h.map e.name hlive _).2 ⟨i, e, ad, hi, rfl, hp, rfl⟩
    obtain ⟨-, hl4, arr', ha', hb⟩ := hz.fld e.name _ hlive hm
    have haa : sp.heap[ad]? = some (some arr) := by rw [h.heap]; exact ha
    have : arr' = arr := by
      have h2 : sp.heap[ad]? = some (some arr') := ha'
      rw [haa] at h2
      simpa using h2.symm
    subst this
    obtain ⟨-, -, hr1, hr4⟩ := exts_pos hext
    have hl4 : e.l.length = 4 := hl4
    refine ⟨hext, rfl, ?_, ?_, hlive⟩
    · show (e.l.take (rank e.dtype)).length = rank e.dtype
      simp [hl4]; omega
    · show ((((pointer s e.dtype e.pti).join.bind s.at).map (·.data)).getD []).length
        = total (boundsOf e.dtype (e.l.take (rank e.dtype)))
      rw [bounds_take, hp]
      simp only [Option.join_some, Option.bind_some, S.at, ha, Option.map_some, Option.getD_some]
      rw [hz.arr ad _ haa]
      exact total_congr hb
  have hnames : (((saved s).map (recOf s)).map (·.name)).Nodup := by
    rw [List.map_map]
    have : ((fun r : Rec => r.name) ∘ recOf s) = fun e : Entry => e.name := rfl
    rw [this]
    exact (hperm.map _).nodup_iff.2 (nodup_names h.inv)
  have hlen : empty.cnt + ((saved s).map (recOf s)).length ≤ 2048 := by
    have h1 := hperm.length_eq
    have h2 := List.length_filter_le (fun e : Entry => decide (e.a.flags &&& 1 ≠ 0)) s.dir
    have h3 := hz.cnt
    have h4 := h.cnt
    simp only [List.length_map, empty]
    omega
  obtain ⟨s', hread, hrel⟩ := read_all _ rel_init hgood (fun _ _ => rfl) hnames hlen
  refine ⟨_, s', _, write_eq h.inv, ?_, hrel, ?_, ?_⟩
  · exact hread
  · intro n f arr hn hf hbit harr
    obtain ⟨i, e, ad, hi, he, hp, rfl⟩ := (h.map n hn f).1 hf
    have hflag : e.a.flags &&& 1 ≠ 0 := (bit0 _).2 hbit
    have hsv : e ∈ saved s := (hmem e).2 ⟨List.mem_of_getElem? hi, hflag⟩
    obtain ⟨ad', hm', ha'⟩ := sread_found _ empty (recOf s e) hnames (List.mem_map_of_mem hsv)
    have harr : s.heap[ad]? = some (some arr) := by rw [← h.heap]; exact harr
    refine ⟨ad', ?_, ?_⟩
    · rw [← he]
      refine hm'.trans ?_
      rfl
    · rw [ha']
      simp [arrRec, recOf, bounds_take, hp, S.at, harr, fieldOf]
  · intro n hn hno
    rw [sread_other]
    · rfl
    · intro r hr hrn
      obtain ⟨e, he, rfl⟩ := List.mem_map.1 hr
      obtain ⟨hd, hf⟩ := (hmem e).1 he
      obtain ⟨i, hi⟩ := List.getElem?_of_mem hd
      have hlive := flagged_live h.inv hi hf
      obtain ⟨hext, ad, arr, hp, ha⟩ := h.inv.own i e hi hlive
      have hm := (h.map e.name hlive _).2 ⟨i, e, ad, hi, rfl, hp, rfl⟩
      have hen : e.name = n := hrn
      rw [hen] at hm
      have := hno _ hm
      rw [show (fieldOf e ad).a.flags = e.a.flags from rfl, (bit0 _).1 hf] at this
      simp at this

/-- **C72** Whatever a program has done, writing the restart file and reading it in another
program brings back every variable which asked for it: with its type, the layout of its
dimensions, its attributes and the elements of its array; and no other variable.  All later
calls are answered from these variables. -/
theorem C72_restart (ops : List Op) (h : Allowed empty ops) :
    ∃ s rs file s' sp', run init ops = some (s, rs) ∧ checkpointWrite s = some file ∧
      checkpointRead file init = some s' ∧
      (∀ n, n ≠ tomb → ∀ f, sp'.map n = some f ↔ Has s' n f) ∧ sp'.heap = s'.heap ∧
      (∀ later, Allowed sp' later → ∃ t, run s' later = some (t, (srun sp' later).2)) ∧
      (∀ n f arr, n ≠ tomb → (srun empty ops).1.map n = some f → f.a.flags.getLsbD 0 = true →
        (srun empty ops).1.heap[f.ptr]? = some (some arr) →
        ∃ ad, sp'.map n = some (restored f ad) ∧
          sp'.heap[ad]? = some (some ⟨boundsOf f.dtype f.l, arr.data⟩)) ∧
      (∀ n, n ≠ tomb → (∀ f, (srun empty ops).1.map n = some f → f.a.flags.getLsbD 0 = false) →
        sp'.map n = none) := by
  obtain ⟨s, hr, hs⟩ := run_rel ops rel_init h
  obtain ⟨file, s', sp', h1, h2, h3, h4, h5⟩ :=
    restart_rel hs (sized_run ops rel_init sized_empty h)
  exact ⟨s, _, file, s', sp', hr, h1, h2, h3.map, h3.heap,
    fun later hl => (run_rel later h3 hl).imp fun _ ht => ht.1, h4, h5⟩

/-- **C72** ... and `gmm_create` in that program, with the same dimensions, hands back the array
which was saved. -/
theorem C72_create (ops : List Op) (h : Allowed empty ops) {name : Name} {f : Field} {arr : Arr}
    (hn : fixed name ≠ tomb) (hf : (srun empty ops).1.map (fixed name) = some f)
    (hbit : f.a.flags.getLsbD 0 = true)
    (harr : (srun empty ops).1.heap[f.ptr]? = some (some arr)) {m : Meta}
    (hl : m.l.length = 4)
    (hdims : ∀ (i : Nat) d d', i < f.dtype % 10 → m.l[i]? = some d → f.l[i]? = some d' →
      d.high - d.low = d'.high - d'.low ∧ d.low ≤ d.high + 1)
    (junk : Nat → Nat) (nan : Nat) :
    ∃ s rs file s', run init ops = some (s, rs) ∧ checkpointWrite s = some file ∧
      checkpointRead file init = some s' ∧
      ∃ s'' ad, create f.dtype name none m junk nan s' = some (s'', ⟨0, some ad, m⟩) ∧
        s''.heap[ad]? = some (some ⟨boundsOf f.dtype f.l, arr.data⟩) := by
  have hz := sized_run ops rel_init sized_empty h
  obtain ⟨hext, hl4, -⟩ := hz.fld _ f hn hf
  obtain ⟨s, hr, hs⟩ := run_rel ops rel_init h
  obtain ⟨file, s', sp', h1, h2, h3, h4, -⟩ := restart_rel hs hz
  obtain ⟨ad, hm, ha⟩ := h4 _ f arr hn hf hbit harr
  refine ⟨s, _, file, s', hr, h1, h2, ?_⟩
  obtain ⟨-, -, hr1, hr4⟩ := exts_pos hext
  have hcon : consistent f.dtype ⟨boundsOf f.dtype f.l, arr.data⟩ m.l = true := by
    simp only [consistent, beq_iff_eq, boundsOf, List.map_map]
    apply List.ext_getElem?
    intro i
    rw [List.getElem?_map, List.getElem?_map, List.getElem?_take, List.getElem?_take]
    by_cases hi : i < rank f.dtype
    · rw [if_pos hi, if_pos hi]
      obtain ⟨d, hd⟩ : ∃ d, m.l[i]? = some d := ⟨m.l[i]'(by omega), List.getElem?_eq_getElem _⟩
      obtain ⟨d', hd'⟩ : ∃ d', f.l[i]? = some d' := ⟨f.l[i]'(by omega), List.getElem?_eq_getElem _⟩
      obtain ⟨e1, e2⟩ := hdims i d d' hi hd hd'
      rw [hd, hd']
      simp only [Option.map_some, Function.comp, extent, Option.some.injEq]
      omega
    · rw [if_neg hi, if_neg hi]
      rfl
  obtain ⟨s'', hst, hrel⟩ := sim_create (ext := f.dtype) (name := name) (p := none) (m := m)
    (junk := junk) (nan := nan) h3 ⟨hn, hext, hl, fun a hx => by simp at hx,
      fun g hg => by
        rw [hm] at hg
        obtain rfl := Option.some.inj hg
        rfl,
      fun hx => by rw [hm] at hx; simp at hx⟩
  refine ⟨s'', ad, ?_, ?_⟩
  · have hfit : fits sp'.heap ad f.dtype m.l = true := by rw [fits_eq ha]; exact hcon
    rcases lookup h3 hn with ⟨hm2, -, -⟩ | ⟨i, e, a, arr2, hi, he, hp, ha2, hm2, hfind⟩
    · rw [hm2] at hm; simp at hm
    · rw [hm] at hm2
      have hm2 := Option.some.inj hm2
      have hty : f.dtype = e.dtype := congrArg Field.dtype hm2
      have hptr : ad = a := congrArg Field.ptr hm2
      have hfl : (f.a.flags &&& 15) ||| 16 = e.a.flags := congrArg (fun x : Field => x.a.flags) hm2
      have hb5 : ¬ (e.a.flags &&& 32 ≠ 0) := by
        rw [bit5, ← hfl, BitVec.getLsbD_or, BitVec.getLsbD_and]
        have a1 : (15 : BitVec 32).getLsbD 5 = false := by decide
        have a2 : (16 : BitVec 32).getLsbD 5 = false := by decide
        rw [a1, a2]
        simp
      have harr2 : arr2 = ⟨boundsOf f.dtype f.l, arr.data⟩ := by
        have := ha
        rw [h3.heap, hptr, ha2] at this
        simpa using this
      simp only [step, Option.map_eq_some_iff] at hst
      obtain ⟨q, hq, hqe⟩ := hst
      rw [hq]
      have hq2 := hq
      have hp' : pointer { s' with cur := i + 1 } f.dtype e.pti = some (some ad) := by
        rw [hty, hptr]; exact hp
      have hat : (S.at { s' with cur := i + 1 } ad) = some ⟨boundsOf f.dtype f.l, arr.data⟩ := by
        simp only [S.at]
        rw [hptr, ha2, harr2]
        rfl
      simp only [create, hfind, Option.bind_eq_bind, Option.bind_some, Bool.true_eq_false,
        if_false, Nat.add_sub_cancel, hi, Option.isSome_none, Bool.false_eq_true, hp',
        Option.join_some, hat, hcon, Nat.add_one_ne_zero, if_neg hb5] at hq2
      have := Option.some.inj hq2
      have e1 : q.1 = s'' := congrArg Prod.fst hqe
      have e2 : q.2 = ⟨0, some ad, m⟩ := by rw [← this]
      rw [← e1, ← e2]
  · have hheap := hrel.heap
    have hfit : fits sp'.heap (restored f ad).ptr f.dtype m.l = true := by
      show fits sp'.heap ad f.dtype m.l = true
      rw [fits_eq ha]; exact hcon
    rw [← hheap]
    simp only [sstep, Option.any_none, Bool.false_eq_true, if_false, hm, hfit, Bool.true_eq_false]
    split <;> exact ha

/-- An example: of two variables one asks to be saved. -/
example :
    ((run init [.create 242 nU none (meta2 2 2 1) (fun k => k + 90) 5,
      .create 142 nV none (meta2 1 2 0) (fun k => k + 70) 5,
      .store 0 [1, 2, 3, 4]]).bind fun r =>
        (checkpointWrite r.1).bind fun file => (checkpointRead file init).bind fun s =>
          (create 242 nU none (meta2 2 2 1) (fun _ => 0) 5 s).map fun q =>
            (q.2.code, q.2.p, q.1.heap))
    = some (0, some 0, [some ⟨[(1, 2), (1, 2)], [1, 2, 3, 4]⟩]) := by decide +kernel

end Props.NamedArrays
