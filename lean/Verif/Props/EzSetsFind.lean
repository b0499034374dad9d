import Mathlib.Data.List.Perm.Subperm
import Mathlib.Data.List.Range
import Verif.Props.EzSets

/-! Property C75: search of pairs of grids. -/

namespace Verif.EzSets

theorem defset_eq (o : Out) (g : Nat) : defset o g = (do
      let p ← prime (start o).log
      let home := g % p
      if (← read (start o).gset home) = some g then .ok (start o)
      else
        let (i, found) ← scan (start o).gset g p ((home : Int) - 1) ((start o).gset.length + 1) home
        if found then .ok { start o with last := g }
        else
          let o := { start o with gset := (start o).gset.set i (some g), n := (start o).n + 1 }
          if o.n ≥ p / 2 then reallocate o else .ok o) := rfl

/-! ### Fewer than 63 input grids -/

def Few (S : List Nat) (o : Out) : Prop := Ready S o ∧ (S ≠ [] → o.log = 7)

theorem Few.start {S : List Nat} {o : Out} (h : Few S o) : (start o).log = 7 := by
  rcases h.1 with ⟨rfl, h0⟩ | ⟨h1, h2⟩
  · rw [EzSets.start, if_pos h0]
  · have : o.n ≠ 0 := by
      rw [h2.n]
      have := List.length_pos_of_ne_nil h1
      omega
    rw [EzSets.start, if_neg this]
    exact h.2 h1

theorem start_at {S : List Nat} {o : Out} (h : Ready S o) (hS : S ≠ []) : start o = o := by
  have h2 := h.at hS
  have : o.n ≠ 0 := by
    rw [h2.n]
    have := List.length_pos_of_ne_nil hS
    omega
  rw [EzSets.start, if_neg this]

theorem defset_few {S : List Nat} {o : Out} (h : Few S o) {g : Nat}
    (hl : (if g ∈ S then S else S ++ [g]).length < 63) :
    ∃ o', defset o g = .ok o' ∧ Few (if g ∈ S then S else S ++ [g]) o' ∧
      (S ≠ [] → ∀ i x, At o i x → At o' i x) := by
  have hI := h.1.start
  have h7' := h.start
  have key : ∃ o', defset o g = .ok o' ∧ o'.log = 7 ∧ ∀ i x, At (start o) i x → At o' i x := by
    rw [defset_eq]
    generalize start o = s at hI h7'
    obtain ⟨hnd, hn, hmem, p, hp, h7, hg, hc, hlt⟩ := hI
    have hp127 : p = 127 := by
      rw [h7'] at hp
      simpa [primes] using hp.symm
    subst hp127
    have hp0 : 0 < 127 := by omega
    have hk := empty_of_count (t := s.gset) (by rw [hc, hg.len]; omega)
    simp only [prime, hp, bind, Except.bind]
    have hhome : g % 127 < s.gset.length := by rw [hg.len]; exact Nat.mod_lt _ hp0
    rw [read_nat _ _ (List.getElem?_eq_getElem hhome)]
    simp only
    split
    · exact ⟨s, rfl, h7', fun _ _ h => h⟩
    · by_cases hin : g ∈ S
      · obtain ⟨j, hj⟩ := (hmem g).1 hin
        rw [(scan_old hg hp0 hk hj).1]
        exact ⟨_, rfl, h7', fun _ _ h => h⟩
      · have hno : ∀ i : Nat, s.gset[i]? ≠ some (some g) := fun i hi => hin ((hmem g).2 ⟨i, hi⟩)
        obtain ⟨e, h1, h2, h3, h4⟩ := scan_new hg hp0 hk hno
        rw [h4]
        simp only [Bool.false_eq_true, if_false]
        rw [if_neg hin, List.length_append, List.length_singleton] at hl
        rw [if_neg (by omega)]
        refine ⟨_, rfl, h7', fun i x hi => ?_⟩
        show (s.gset.set _ _)[i]? = _
        rw [List.getElem?_set_ne]
        · exact hi
        · rintro rfl
          have hi : s.gset[(g % 127 + e) % 127]? = some (some x) := hi
          rw [h2] at hi
          simp at hi
  obtain ⟨o', h1, h2, h3⟩ := key
  refine ⟨o', h1, ⟨defset_inv h.1 h1, fun _ => h2⟩, fun hS => ?_⟩
  rw [start_at h.1 hS] at h3
  exact h3

theorem few_mono (S : List Nat) (hS : S.Nodup) (all : List Nat) (h : ∀ g ∈ S, g ∈ all)
    (hall : all.dedup.length < 63) : S.length < 63 :=
  Nat.lt_of_le_of_lt
    (List.subperm_of_subset hS (fun g hg => List.mem_dedup.2 (h g hg))).length_le hall

theorem Ready.nodup {S : List Nat} {o : Out} (h : Ready S o) : S.Nodup := by
  rcases h with ⟨rfl, _⟩ | ⟨_, h⟩
  · exact .nil
  · exact h.nodup

theorem defAll_few (all : List Nat) (hall : all.dedup.length < 63) : ∀ (gs S : List Nat) (o : Out),
    Few S o → (∀ g ∈ S, g ∈ all) → (∀ g ∈ gs, g ∈ all) →
    ∃ o' S', defAll o gs = .ok o' ∧ Few S' o' ∧ (∀ g, g ∈ S' ↔ g ∈ S ∨ g ∈ gs) ∧
      (S ≠ [] → ∀ i x, At o i x → At o' i x)
  | [], S, o, h, _, _ => ⟨o, S, rfl, h, by simp, fun _ _ _ h => h⟩
  | g :: gs, S, o, h, hS, hgs => by
    have hS1 : ∀ x ∈ (if g ∈ S then S else S ++ [g]), x ∈ all := by
      intro x hx
      split at hx
      · exact hS x hx
      · rcases List.mem_append.1 hx with hx | hx
        · exact hS x hx
        · rw [List.mem_singleton.1 hx]; exact hgs g (by simp)
    have hnd1 : (if g ∈ S then S else S ++ [g]).Nodup := by
      split
      · exact h.1.nodup
      · rename_i hin
        rw [List.nodup_append]
        refine ⟨h.1.nodup, by simp, ?_⟩
        intro a ha b hb
        rw [List.mem_singleton.1 hb]
        rintro rfl
        exact hin ha
    obtain ⟨o1, a1, a2, a3⟩ := defset_few h (few_mono _ hnd1 all hS1 hall)
    obtain ⟨o2, S2, b1, b2, b3, b4⟩ := defAll_few all hall gs _ o1 a2 hS1
      (fun x hx => hgs x (by simp [hx]))
    refine ⟨o2, S2, ?_, b2, fun x => ?_, fun hne i x hi => b4 ?_ i x (a3 hne i x hi)⟩
    · rw [defAll, a1]
      exact b1
    · rw [b3 x]
      by_cases hin : g ∈ S
      · rw [if_pos hin, List.mem_cons]
        constructor
        · rintro (h | h)
          · exact Or.inl h
          · exact Or.inr (Or.inr h)
        · rintro (h | rfl | h)
          · exact Or.inl h
          · exact Or.inl hin
          · exact Or.inr h
      · rw [if_neg hin, List.mem_append, List.mem_singleton, List.mem_cons, or_assoc]
    · split
      · exact hne
      · simp

theorem findIn_few {S : List Nat} {o : Out} (h : Few S o) (hS : S ≠ []) (g : Nat) :
    (∀ i, At o i g → findIn o g = .ok (i : Int)) ∧ (g ∉ S → findIn o g = .ok (-1)) := by
  have hI := h.1.start
  have h7' := h.start
  rw [start_at h.1 hS] at hI h7'
  obtain ⟨hnd, hn, hmem, p, hp, h7, hg, hc, hlt⟩ := hI
  have hp127 : p = 127 := by
    rw [h7'] at hp
    simpa [primes] using hp.symm
  subst hp127
  have hp0 : 0 < 127 := by omega
  have hk := empty_of_count (t := o.gset) (by rw [hc, hg.len]; omega)
  have hhome : g % 127 < o.gset.length := by rw [hg.len]; exact Nat.mod_lt _ hp0
  unfold findIn
  simp only [prime, hp, bind, Except.bind]
  rw [read_nat _ _ (List.getElem?_eq_getElem hhome)]
  simp only
  constructor
  · intro i hi
    split
    · rename_i he
      have : o.gset[g % 127]? = some (some g) := by rw [List.getElem?_eq_getElem hhome, he]
      rw [hg.dist _ _ _ this hi]
    · rw [(scan_old hg hp0 hk hi).1]
      rfl
  · intro hin
    have hno : ∀ i : Nat, o.gset[i]? ≠ some (some g) := fun i hi => hin ((hmem g).2 ⟨i, hi⟩)
    rw [if_neg (fun e => hno (g % 127) (by rw [List.getElem?_eq_getElem hhome, e]))]
    obtain ⟨e, h1, h2, h3, h4⟩ := scan_new hg hp0 hk hno
    rw [h4]
    rfl

theorem find_few {S : List Nat} {o : Out} (h : Few S o) (hS : S ≠ []) {g i : Nat} (hi : At o i g)
    (h126 : g % 127 ≠ 126) (hlast : 0 ≤ o.last ∧ o.last < 127) :
    ∃ l, 0 ≤ l ∧ l < 127 ∧ find o g = .ok ({ o with last := l }, (i : Int)) := by
  have hI := h.1.start
  have h7' := h.start
  rw [start_at h.1 hS] at hI h7'
  obtain ⟨hnd, hn, hmem, p, hp, h7, hg, hc, hlt⟩ := hI
  have hp127 : p = 127 := by
    rw [h7'] at hp
    simpa [primes] using hp.symm
  subst hp127
  have hp0 : 0 < 127 := by omega
  have hk := empty_of_count (t := o.gset) (by rw [hc, hg.len]; omega)
  have hhome : g % 127 < o.gset.length := by rw [hg.len]; exact Nat.mod_lt _ hp0
  have hil : i < o.gset.length := (List.getElem?_eq_some_iff.1 hi).1
  have hll : o.last.toNat < o.gset.length := by rw [hg.len]; omega
  have hrl : read o.gset o.last = .ok (o.gset[o.last.toNat]) := by
    unfold read
    rw [if_pos (by omega), List.getElem?_eq_getElem hll]
  unfold find
  rw [if_neg (by omega)]
  simp only [bind, Except.bind]
  rw [hrl]
  simp only
  split
  · rename_i he
    have : o.gset[o.last.toNat]? = some (some g) := by rw [List.getElem?_eq_getElem hll, he]
    have := hg.dist _ _ _ this hi
    exact ⟨o.last, hlast.1, hlast.2, by rw [← this]; congr 2; omega⟩
  · rw [read_nat _ _ (List.getElem?_eq_getElem hhome)]
    simp only
    split
    · rename_i he
      have : o.gset[g % 127]? = some (some g) := by rw [List.getElem?_eq_getElem hhome, he]
      exact ⟨o.last, hlast.1, hlast.2, by rw [hg.dist _ _ _ this hi]⟩
    · rename_i he
      have hne : i ≠ g % 127 := by
        intro e
        apply he
        have hi : o.gset[i]? = some (some g) := hi
        rw [e, List.getElem?_eq_getElem hhome] at hi
        simpa using hi
      simp only [prime, hp]
      rw [(scan_old hg hp0 hk hi).2 hne (by omega)]
      rw [hg.len] at hil
      exact ⟨(i : Int), by omega, by omega, rfl⟩

/-- Fewer than 63 different input grids for an output grid, of any numbers: no call fails, both searches
find the place, further calls of `c_ezdefset` do not move it. For `c_find_gdin` the index
`idx_last_gdin` must be one of the table, and the last place must not be the one of the number. -/
theorem C75_few_partial (last : Int) (gs more : List Nat) (hgs : gs ≠ [])
    (h : (gs ++ more).dedup.length < 63) :
    ∃ o o', defAll (fresh last) gs = .ok o ∧ defAll o more = .ok o' ∧
      (∀ i g, At o i g → At o' i g) ∧
      (∀ g ∈ gs, ∃ i, At o i g ∧ findIn o g = .ok (i : Int) ∧
        (g % 127 ≠ 126 → 0 ≤ o.last → o.last < 127 →
          ∃ l, 0 ≤ l ∧ l < 127 ∧ find o g = .ok ({ o with last := l }, (i : Int)))) ∧
      (∀ g, g ∉ gs → findIn o g = .ok (-1)) := by
  obtain ⟨o, S, h1, h2, h3, -⟩ := defAll_few (gs ++ more) h gs [] (fresh last)
    ⟨Or.inl ⟨rfl, rfl⟩, by simp⟩ (by simp) (by simp +contextual)
  have h3' : ∀ g, g ∈ S ↔ g ∈ gs := fun g => by rw [h3 g]; simp
  have hS : S ≠ [] := by
    obtain ⟨g, hg⟩ := List.exists_mem_of_ne_nil gs hgs
    exact List.ne_nil_of_mem ((h3' g).2 hg)
  obtain ⟨o', S', g1, g2, g3, g4⟩ := defAll_few (gs ++ more) h more S o h2
    (fun g hg => by simp [(h3' g).1 hg]) (by simp +contextual)
  refine ⟨o, o', h1, g1, g4 hS, fun g hg => ?_, fun g hg => ?_⟩
  · obtain ⟨i, hi⟩ := ((h2.1.at hS).mem g).1 ((h3' g).2 hg)
    exact ⟨i, hi, (findIn_few h2 hS g).1 i hi, fun a b c => find_few h2 hS hi a ⟨b, c⟩⟩
  · exact (findIn_few h2 hS g).2 (fun h => hg ((h3' g).1 h))

/-! ### Numbers below 127 -/

/-- Calls of a program; `search` is `c_find_gdin`. -/
inductive Op
  | define (g : Nat)
  | search (g : Nat)

def step (o : Out) : Op → Except Fault (Out × Option Int)
  | .define g => do
    let o ← defset o g
    .ok (o, none)
  | .search g => do
    let (o, i) ← find o g
    .ok (o, some i)

def run : Out → List Op → Except Fault (Out × List (Option Int))
  | o, [] => .ok (o, [])
  | o, op :: ops => do
    let (o, a) ← step o op
    let (o, as) ← run o ops
    .ok (o, a :: as)

def num : Op → Nat
  | .define g => g
  | .search g => g

/-- Numbers below 127, and searches only of grids that were defined before. -/
def Allowed : List Nat → List Op → Prop
  | _, [] => True
  | S, .define g :: ops => g < 127 ∧ Allowed (g :: S) ops
  | S, .search g :: ops => g ∈ S ∧ Allowed S ops

/-- Every grid has its number as place. -/
def Small (S : List Nat) (o : Out) : Prop :=
  Ready S o ∧ (∀ g ∈ S, g < 127) ∧ (S ≠ [] → ∀ j h : Nat, o.gset[j]? = some (some h) → h = j)

theorem refill_small {q : Nat} (hq : 127 ≤ q) : ∀ (old t : List (Option Nat)), t.length = q →
    (∀ i g : Nat, old[i]? = some (some g) → g < 127) →
    (∀ i j g : Nat, old[i]? = some (some g) → old[j]? = some (some g) → i = j) →
    (∀ i j g : Nat, old[i]? = some (some g) → t[j]? ≠ some (some g)) →
    (∀ j h : Nat, t[j]? = some (some h) → h = j) →
    ∃ t', refill q old t = .ok t' ∧ ∀ j h : Nat, t'[j]? = some (some h) → h = j
  | [], t, _, _, _, _, ht => ⟨t, rfl, ht⟩
  | none :: old, t, hl, hb, hd, hn, ht => by
    simp only [refill]
    exact refill_small hq old t hl (fun i g h => hb (i + 1) g (by simpa using h))
      (fun i j g h1 h2 => by
        have := hd (i + 1) (j + 1) g (by simpa using h1) (by simpa using h2)
        omega)
      (fun i j g h1 => hn (i + 1) j g (by simpa using h1)) ht
  | some g :: old, t, hl, hb, hd, hn, ht => by
    have hg := hb 0 g (by simp)
    have hgl : g < t.length := by omega
    have h0 : t[g]? = some none := by
      rw [List.getElem?_eq_getElem hgl]
      cases hv : t[g] with
      | none => rfl
      | some x =>
        have hx : t[g]? = some (some x) := by rw [List.getElem?_eq_getElem hgl, hv]
        have := ht g x hx
        subst this
        exact absurd hx (hn 0 x x (by simp))
    have hr : reinsert q t g = .ok (t.set g (some g)) := by
      unfold reinsert
      simp only [Nat.mod_eq_of_lt (show g < q by omega), read_nat _ _ h0, bind, Except.bind]
    have hset : ∀ j h : Nat, (t.set g (some g))[j]? = some (some h) →
        (j = g ∧ h = g) ∨ t[j]? = some (some h) := by
      intro j h hj
      by_cases e : g = j
      · subst e
        rw [List.getElem?_set_self hgl] at hj
        exact Or.inl ⟨rfl, by simpa using hj.symm⟩
      · rw [List.getElem?_set_ne e] at hj
        exact Or.inr hj
    rw [refill, hr]
    simp only [bind, Except.bind]
    exact refill_small hq old _ (by simp [hl]) (fun i g h => hb (i + 1) g (by simpa using h))
      (fun i j g h1 h2 => by
        have := hd (i + 1) (j + 1) g (by simpa using h1) (by simpa using h2)
        omega)
      (fun i j x h1 h2 => by
        rcases hset j x h2 with ⟨-, rfl⟩ | h3
        · have := hd 0 (i + 1) x (by simp) (by simpa using h1)
          omega
        · exact hn (i + 1) j x (by simpa using h1) h3)
      (fun j h hj => by
        rcases hset j h hj with ⟨e1, e2⟩ | h3
        · rw [e1, e2]
        · exact ht j h h3)

theorem small_length {S : List Nat} (hS : S.Nodup) (h : ∀ g ∈ S, g < 127) : S.length ≤ 127 := by
  have := (List.subperm_of_subset hS (fun g hg => List.mem_range.2 (h g hg))).length_le
  simpa using this

theorem defset_small {S : List Nat} {o : Out} (h : Small S o) {g : Nat} (hg127 : g < 127) :
    ∃ o', defset o g = .ok o' ∧ Small (if g ∈ S then S else S ++ [g]) o' ∧ o'.last = o.last := by
  have hI := h.1.start
  have hlast : (start o).last = o.last := by unfold EzSets.start; split <;> rfl
  have hid : ∀ j x : Nat, (start o).gset[j]? = some (some x) → x = j := by
    by_cases hS : S = []
    · subst hS
      intro j x hx
      have := (hI.mem x).2 ⟨j, hx⟩
      simp at this
    · rw [start_at h.1 hS]
      exact h.2.2 hS
  have hS1 : ∀ x ∈ (if g ∈ S then S else S ++ [g]), x < 127 := by
    intro x hx
    split at hx
    · exact h.2.1 x hx
    · rcases List.mem_append.1 hx with hx | hx
      · exact h.2.1 x hx
      · rw [List.mem_singleton.1 hx]; exact hg127
  have key : ∃ o', defset o g = .ok o' ∧ o'.last = (start o).last ∧
      ∀ j x : Nat, o'.gset[j]? = some (some x) → x = j := by
    rw [defset_eq]
    generalize start o = s at hI hid
    obtain ⟨hnd, hn, hmem, p, hp, h7, hg, hc, hlt⟩ := hI
    have hpp := prime_pos hp h7
    have hp0 : 0 < p := by omega
    have hgp : g % p = g := Nat.mod_eq_of_lt (by omega)
    have hgl : g < s.gset.length := by rw [hg.len]; omega
    simp only [prime, hp, bind, Except.bind, hgp]
    rw [read_nat _ _ (List.getElem?_eq_getElem hgl)]
    simp only
    split
    · exact ⟨s, rfl, rfl, hid⟩
    · rename_i hne
      have h0 : s.gset[g]? = some none := by
        rw [List.getElem?_eq_getElem hgl]
        cases hv : s.gset[g] with
        | none => rfl
        | some x =>
          have := hid g x (by rw [List.getElem?_eq_getElem hgl, hv])
          subst this
          exact absurd hv hne
      have hsc : scan s.gset g p ((g : Int) - 1) (s.gset.length + 1) g = .ok (g, false) := by
        rw [scan, if_neg (by omega), read_nat _ _ h0]
        rfl
      rw [hsc]
      simp only [Bool.false_eq_true, if_false]
      have hset : ∀ j x : Nat, (s.gset.set g (some g))[j]? = some (some x) → x = j := by
        intro j x hj
        by_cases e : g = j
        · subst e
          rw [List.getElem?_set_self hgl] at hj
          simpa using hj.symm
        · rw [List.getElem?_set_ne e] at hj
          exact hid j x hj
      have hno : g ∉ S := by
        intro hin
        obtain ⟨i, hi⟩ := (hmem g).1 hin
        have := hid i g hi
        subst this
        have hi : s.gset[g]? = some (some g) := hi
        rw [h0] at hi
        simp at hi
      have hlen : S.length + 1 ≤ 127 := by
        have := small_length (S := S ++ [g]) (by
            rw [List.nodup_append]
            refine ⟨hnd, by simp, ?_⟩
            intro a ha b hb
            rw [List.mem_singleton.1 hb]
            rintro rfl
            exact hno ha)
          (by rw [if_neg hno] at hS1; exact hS1)
        simpa using this
      split
      · rename_i hge
        have hq : ∃ q, primes[s.log + 1]? = some q ∧ 127 ≤ q := by
          have h12 := hpp.2.2
          generalize hL : s.log = L at hp h7 h12
          have : p / 2 ≤ 127 := by omega
          have hLlt : L < 10 := by
            by_contra hLge
            interval_cases L <;> simp [primes] at hp <;> omega
          interval_cases L <;> simp [primes]
        obtain ⟨q, hq, hq127⟩ := hq
        have hb : ∀ i x : Nat, (s.gset.set g (some g))[i]? = some (some x) → x < 127 := by
          intro i x hi
          by_cases e : g = i
          · subst e
            rw [List.getElem?_set_self hgl] at hi
            simp at hi
            omega
          · rw [List.getElem?_set_ne e] at hi
            exact h.2.1 x ((hmem x).2 ⟨i, hi⟩)
        have hrep : ∀ (i x : Nat), (List.replicate q (none : Option Nat))[i]? ≠ some (some x) := by
          intro i x h
          have := List.mem_of_getElem? h
          rw [List.mem_replicate] at this
          simp at this
        obtain ⟨t', r1, r2⟩ := refill_small hq127 (s.gset.set g (some g)) (List.replicate q none)
          (by simp) hb (fun i j x h1 h2 => by rw [← hset i x h1, ← hset j x h2])
          (fun i j x _ => hrep j x) (fun j x hx => absurd hx (hrep j x))
        refine ⟨{ s with gset := t', log := s.log + 1, n := s.n + 1 }, ?_, rfl, r2⟩
        unfold reallocate
        simp only [prime, hq, bind, Except.bind, r1]
      · exact ⟨_, rfl, rfl, hset⟩
  obtain ⟨o', k1, k2, k3⟩ := key
  exact ⟨o', k1, ⟨defset_inv h.1 k1, hS1, fun _ => k3⟩, by rw [k2, hlast]⟩

theorem find_small {S : List Nat} {o : Out} (h : Small S o) {g : Nat} (hg : g ∈ S)
    (hl : -1 ≤ o.last ∧ o.last < 127) :
    ∃ o', find o g = .ok (o', (g : Int)) ∧ Small S o' ∧ o'.last = o.last := by
  have hg127 := h.2.1 g hg
  have hS : S ≠ [] := List.ne_nil_of_mem hg
  have fin : ∀ o1 : Out, Small S o1 → o1.gset[g]? = some (some g) ∧ 127 ≤ o1.gset.length ∧
      primes[o1.log]? = some o1.gset.length := by
    intro o1 h1
    obtain ⟨hnd, hn, hmem, p, hp, h7, hgd, hc, hlt⟩ := h1.1.at hS
    obtain ⟨i, hi⟩ := (hmem g).1 hg
    have := h1.2.2 hS i g hi
    subst this
    rw [hgd.len]
    exact ⟨hi, (prime_pos hp h7).1, hp⟩
  unfold find
  by_cases hm : o.last = -1
  · obtain ⟨o1, d1, d2, d3⟩ := defset_small h hg127
    rw [if_pos hg] at d2
    obtain ⟨f1, f2, f3⟩ := fin o1 d2
    rw [if_pos hm, d1]
    simp only [bind, Except.bind, prime, f3]
    rw [Nat.mod_eq_of_lt (by omega), read_nat _ _ f1]
    simp only [if_true]
    exact ⟨o1, rfl, d2, d3⟩
  · obtain ⟨f1, f2, f3⟩ := fin o h
    rw [if_neg hm]
    simp only [bind, Except.bind]
    have hll : o.last.toNat < o.gset.length := by omega
    have hrl : read o.gset o.last = .ok (o.gset[o.last.toNat]) := by
      unfold read
      rw [if_pos (by omega), List.getElem?_eq_getElem hll]
    rw [hrl]
    simp only
    split
    · rename_i he
      have := h.2.2 hS o.last.toNat g (by rw [List.getElem?_eq_getElem hll, he])
      exact ⟨o, by congr 2; omega, h, rfl⟩
    · simp only [Nat.mod_eq_of_lt hg127]
      rw [read_nat _ _ f1]
      simp only [if_true]
      exact ⟨o, rfl, h, rfl⟩

/-- With numbers of grids below 127, calls of `c_ezdefset` and `c_find_gdin` in any order work: the
place of a grid is always its number. -/
theorem C75_small_partial : ∀ (ops : List Op) (S : List Nat) (T : List Nat) (o : Out), Small S o →
    (∀ g, g ∈ T → g ∈ S) → -1 ≤ o.last ∧ o.last < 127 → Allowed T ops →
    ∃ o', run o ops = .ok (o', ops.map fun
      | .define _ => none
      | .search g => some (g : Int))
  | [], _, _, o, _, _, _, _ => ⟨o, rfl⟩
  | .define g :: ops, S, T, o, h, hT, hl, ha => by
    obtain ⟨o1, d1, d2, d3⟩ := defset_small h ha.1
    obtain ⟨o2, e⟩ := C75_small_partial ops _ (g :: T) o1 d2 (by
      intro x hx
      rcases List.mem_cons.1 hx with rfl | hx
      · split
        · assumption
        · simp
      · have := hT x hx
        split
        · exact this
        · simp [this]) (by rw [d3]; exact hl) ha.2
    refine ⟨o2, ?_⟩
    rw [run, step, d1]
    simp only [bind, Except.bind, e]
    rfl
  | .search g :: ops, S, T, o, h, hT, hl, ha => by
    obtain ⟨o1, d1, d2, d3⟩ := find_small h (hT g ha.1) hl
    obtain ⟨o2, e⟩ := C75_small_partial ops S T o1 d2 hT (by rw [d3]; exact hl) ha.2
    refine ⟨o2, ?_⟩
    rw [run, step, d1]
    simp only [bind, Except.bind, e]
    rfl

/-! ### Cases that fail -/

/-- Three grids with the same place of their numbers. -/
example : ∃ o, defAll (fresh 0) [7, 134, 261] = .ok o ∧ ∃ i : Nat, findIn o 261 = .ok (i : Int) := by
  obtain ⟨o, _, h1, _, _, h2, _⟩ := C75_few_partial 0 [7, 134, 261] [300, 7] (by decide) (by decide)
  obtain ⟨i, _, h3, _⟩ := h2 261 (by decide)
  exact ⟨o, h1, i, h3⟩

/-- A program for the theorem on small numbers. -/
example (last : Int) (hl : -1 ≤ last ∧ last < 127) : ∃ o', run (fresh last)
    [.define 126, .search 126, .define 3, .search 126, .search 3]
    = .ok (o', [none, some 126, none, some 126, some 3]) :=
  C75_small_partial _ [] [] _ ⟨Or.inl ⟨rfl, rfl⟩, by simp, by simp⟩ (by simp) hl (by simp [Allowed])

/-- 63 input grids with numbers 127 to 189: afterwards `c_find_gdin` does not find number 150. -/
theorem C75_growth_witness : ((defAll (fresh 0) ((List.range 63).map (· + 127))).bind
    (find · 150)).map Prod.snd = .ok (-1) := by decide +kernel

/-- Two grids with the last place of the table as the place of their numbers: `c_find_gdin` reads
outside of the table. -/
theorem C75_edge_witness : (defAll (fresh 0) [0, 126, 253]).bind (find · 253) = .error .outside := by
  decide +kernel

/-- A pair that is not at the place of its number and is defined again: `c_find_gdin` reads
outside of the table, for any grid. -/
theorem C75_index_witness (g : Nat) :
    (defAll (fresh 0) [1, 128, 128]).bind (find · g) = .error .outside := by
  have h : ∃ t, defAll (fresh 0) [1, 128, 128] = .ok ⟨t, 7, 2, 128⟩ ∧ t.length = 127 :=
    ⟨(List.replicate 127 none).set 1 (some 1) |>.set 2 (some 128), by decide +kernel, by simp⟩
  obtain ⟨t, h1, h2⟩ := h
  have h3 : t[128]? = none := by rw [List.getElem?_eq_none_iff, h2]; decide
  have h4 : read t 128 = .error .outside := by simp [read, h3]
  rw [h1]
  simp [Except.bind, find, h4, bind]

/-- A growing table, with two grids that belong to the last place of the new table: the copy reads
outside of it. -/
theorem C75_copy_witness : defAll (fresh 0) ([250, 501] ++ List.range 61) = .error .outside := by
  decide +kernel

/-- After the table has grown, `ez_find_gdin_in_gset` does not find a pair that crossed place 127. -/
theorem C75_wrap_witness : (defAll (fresh 0) ([126, 377] ++ List.range 61)).bind (findIn · 126)
    = .ok (-1) := by decide +kernel

/-- The search for a pair of a regular output grid (`idx_last_gdin` zero) without input grids: the
table is a null pointer. -/
theorem C75_null_witness (g : Nat) : find (fresh 0) g = .error .outside := by
  simp [find, fresh, read, bind, Except.bind]

end Verif.EzSets
