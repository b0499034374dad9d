import Mathlib.Data.List.Dedup
import Mathlib.Tactic.IntervalCases
import Verif.EzSets

/-! Property C75: pairs of input and output grids. -/

namespace Verif.EzSets

/-- Place `i` of the output grid is the one of the input grid `g`. -/
def At (o : Out) (i g : Nat) : Prop := o.gset[i]? = some (some g)

/-- An output grid without input grids. -/
def fresh (last : Int) : Out := ⟨[], 0, 0, last⟩

def defAll : Out → List Nat → Except Fault Out
  | o, [] => .ok o
  | o, g :: gs => do
    let o ← defset o g
    defAll o gs

/-! ### Open addressing -/

/-- Table of `p` places: every grid once, and no empty place between the place of its number and its
own. -/
structure Good (p : Nat) (t : List (Option Nat)) : Prop where
  len : t.length = p
  dist : ∀ (i j g : Nat), t[i]? = some (some g) → t[j]? = some (some g) → i = j
  path : ∀ (j g : Nat), t[j]? = some (some g) → ∃ e, e < p ∧ j = (g % p + e) % p ∧
    ∀ d, d < e → ∃ h, t[(g % p + d) % p]? = some (some h)

theorem read_nat (t : List (Option Nat)) (i : Nat) {v : Option Nat} (h : t[i]? = some v) :
    read t i = .ok v := by
  simp [read, h]

theorem step_pos {p i h d : Nat} (hi : i = (h + d) % p) (hip : i < p) :
    (if (i + 1) % p = 0 then 0 else i + 1) = (h + (d + 1)) % p := by
  have e : (h + (d + 1)) % p = (i + 1) % p := by
    rw [hi, Nat.mod_add_mod]
    rfl
  rw [e]
  split
  · rename_i h0
    exact h0.symm
  · rename_i h0
    rcases Nat.lt_or_ge (i + 1) p with hlt | hge
    · exact (Nat.mod_eq_of_lt hlt).symm
    · have : i + 1 = p := by omega
      rw [this] at h0
      exact absurd (Nat.mod_self p) h0

theorem scan_miss {p : Nat} {t : List (Option Nat)} {g h : Nat} {stop : Int} {e : Nat} (hp : 0 < p)
    (hb : ∀ d, d < e → ((h + d) % p : Nat) ≠ stop ∧ ∃ k, k ≠ g ∧ t[(h + d) % p]? = some (some k))
    (he : ((h + e) % p : Nat) = stop ∨ t[(h + e) % p]? = some none) :
    ∀ (m d fuel : Nat), d + m = e → m < fuel →
      scan t g p stop fuel ((h + d) % p) = .ok ((h + e) % p, false)
  | 0, d, fuel + 1, hd, _ => by
    have : d = e := by omega
    subst this
    rw [scan]
    split
    · rfl
    · rename_i hs
      rw [read_nat _ _ (he.resolve_left hs)]
      rfl
  | m + 1, d, fuel + 1, hd, hf => by
    obtain ⟨h1, k, hk, h2⟩ := hb d (by omega)
    rw [scan, if_neg h1, read_nat _ _ h2]
    simp only [bind, Except.bind]
    rw [if_neg (fun e => hk e.symm), step_pos rfl (Nat.mod_lt _ hp)]
    exact scan_miss hp hb he m (d + 1) fuel (by omega) (by omega)

theorem scan_hit {p : Nat} {t : List (Option Nat)} {g h : Nat} {stop : Int} {e : Nat} (hp : 0 < p)
    (s : Nat)
    (hb : ∀ d, s ≤ d → d < e →
      ((h + d) % p : Nat) ≠ stop ∧ ∃ k, k ≠ g ∧ t[(h + d) % p]? = some (some k))
    (hs : ((h + e) % p : Nat) ≠ stop) (he : t[(h + e) % p]? = some (some g)) :
    ∀ (m d fuel : Nat), s ≤ d → d + m = e → m < fuel →
      scan t g p stop fuel ((h + d) % p) = .ok ((h + e) % p, true)
  | 0, d, fuel + 1, _, hd, _ => by
    have : d = e := by omega
    subst this
    rw [scan, if_neg hs, read_nat _ _ he]
    simp [bind, Except.bind]
  | m + 1, d, fuel + 1, hsd, hd, hf => by
    obtain ⟨h1, k, hk, h2⟩ := hb d hsd (by omega)
    rw [scan, if_neg h1, read_nat _ _ h2]
    simp only [bind, Except.bind]
    rw [if_neg (fun e => hk e.symm), step_pos rfl (Nat.mod_lt _ hp)]
    exact scan_hit hp s hb hs he m (d + 1) fuel (by omega) (by omega) (by omega)

/-- The first empty place from `h` on. -/
theorem first_empty {p : Nat} {t : List (Option Nat)} (hl : t.length = p) {h : Nat}
    (hk : ∃ k : Nat, t[k]? = some none) (hh : h < p) :
    ∃ e, e < p ∧ t[(h + e) % p]? = some none ∧ ∀ d, d < e → ∃ k, t[(h + d) % p]? = some (some k) := by
  obtain ⟨k, hk⟩ := hk
  have hkp : k < p := by rw [← hl]; exact (List.getElem?_eq_some_iff.1 hk).1
  have hex : ∃ e, t[(h + e) % p]? = some none := by
    refine ⟨k + p - h, ?_⟩
    have : h + (k + p - h) = k + p := by omega
    rw [this, Nat.add_mod_right, Nat.mod_eq_of_lt hkp]
    exact hk
  classical
  have hlt : ∀ d, (h + d) % p < t.length := fun d => by rw [hl]; exact Nat.mod_lt _ (by omega)
  refine ⟨Nat.find hex, ?_, Nat.find_spec hex, fun d hd => ?_⟩
  · by_contra hge
    have h1 := Nat.find_min hex (m := Nat.find hex - p) (by omega)
    apply h1
    have h2 := Nat.find_spec hex
    have : h + Nat.find hex = h + (Nat.find hex - p) + p := by omega
    rw [this, Nat.add_mod_right] at h2
    exact h2
  · have h1 := Nat.find_min hex hd
    cases hv : t[(h + d) % p]? with
    | none => exact absurd (List.getElem?_eq_none_iff.1 hv) (by have := hlt d; omega)
    | some v =>
      cases v with
      | none => exact absurd hv h1
      | some k => exact ⟨k, rfl⟩

theorem empty_of_count {t : List (Option Nat)} (h : t.countP Option.isSome < t.length) :
    ∃ k : Nat, t[k]? = some none := by
  by_contra hno
  have : t.countP Option.isSome = t.length := by
    rw [List.countP_eq_length]
    intro v hv
    obtain ⟨k, hk⟩ := List.mem_iff_getElem?.1 hv
    cases v with
    | none => exact absurd ⟨k, hk⟩ hno
    | some _ => rfl
  omega

theorem count_set {t : List (Option Nat)} {j g : Nat} (hj : t[j]? = some none) :
    (t.set j (some g)).countP Option.isSome = t.countP Option.isSome + 1 := by
  obtain ⟨hlt, hv⟩ := List.getElem?_eq_some_iff.1 hj
  rw [List.countP_set hlt, hv]
  simp

theorem pos_inj {p h d e : Nat} (hd : d < p) (he : e < p) (hh : h < p)
    (h1 : (h + d) % p = (h + e) % p) : d = e := by
  have e1 : ∀ x, x < p → (h + x) % p = if h + x < p then h + x else h + x - p := by
    intro x hx
    split
    · rename_i hl; exact Nat.mod_eq_of_lt hl
    · rename_i hl
      rw [Nat.mod_eq_sub_mod (by omega), Nat.mod_eq_of_lt (by omega)]
  rw [e1 d hd, e1 e he] at h1
  split at h1 <;> split at h1 <;> omega

/-- The place before `h` is the last one of the way. -/
theorem pos_stop {p h d : Nat} (hd : d < p) (hh : h < p) (h1 : (((h + d) % p : Nat) : Int) = (h : Int) - 1) :
    d = p - 1 := by
  rcases Nat.lt_or_ge (h + d) p with hlt | hge
  · rw [Nat.mod_eq_of_lt hlt] at h1
    omega
  · have : (h + d) % p = h + d - p := by
      rw [Nat.mod_eq_sub_mod hge, Nat.mod_eq_of_lt (by omega)]
    rw [this] at h1
    omega

theorem Good.insert {p : Nat} {t : List (Option Nat)} (hg : Good p t) {g e : Nat} (hp : 0 < p)
    (hno : ∀ i : Nat, t[i]? ≠ some (some g)) (he : e < p) (h0 : t[(g % p + e) % p]? = some none)
    (hb : ∀ d, d < e → ∃ k, t[(g % p + d) % p]? = some (some k)) :
    Good p (t.set ((g % p + e) % p) (some g)) := by
  have hlt : (g % p + e) % p < t.length := by rw [hg.len]; exact Nat.mod_lt _ hp
  have hget : ∀ (j h : Nat), (t.set ((g % p + e) % p) (some g))[j]? = some (some h) →
      (j = (g % p + e) % p ∧ h = g) ∨ (j ≠ (g % p + e) % p ∧ t[j]? = some (some h)) := by
    intro j h hj
    by_cases e1 : (g % p + e) % p = j
    · left
      rw [← e1, List.getElem?_set_self hlt] at hj
      exact ⟨e1.symm, by simpa using hj.symm⟩
    · right
      rw [List.getElem?_set_ne e1] at hj
      exact ⟨fun h => e1 h.symm, hj⟩
  have hkeep : ∀ (i h : Nat), t[i]? = some (some h) →
      ∃ k, (t.set ((g % p + e) % p) (some g))[i]? = some (some k) := by
    intro i h hi
    by_cases e1 : (g % p + e) % p = i
    · exact ⟨g, by rw [← e1, List.getElem?_set_self hlt]⟩
    · exact ⟨h, by rw [List.getElem?_set_ne e1]; exact hi⟩
  refine ⟨by rw [List.length_set, hg.len], ?_, ?_⟩
  · intro i j h hi hj
    rcases hget i h hi with ⟨a1, a2⟩ | ⟨a1, a2⟩ <;> rcases hget j h hj with ⟨b1, b2⟩ | ⟨b1, b2⟩
    · rw [a1, b1]
    · rw [a2] at b2; exact absurd b2 (hno j)
    · rw [b2] at a2; exact absurd a2 (hno i)
    · exact hg.dist i j h a2 b2
  · intro j h hj
    rcases hget j h hj with ⟨a1, a2⟩ | ⟨a1, a2⟩
    · subst a2
      refine ⟨e, he, a1, fun d hd => ?_⟩
      obtain ⟨k, hk⟩ := hb d hd
      exact hkeep _ k hk
    · obtain ⟨e', h1, h2, h3⟩ := hg.path j h a2
      refine ⟨e', h1, h2, fun d hd => ?_⟩
      obtain ⟨k, hk⟩ := h3 d hd
      exact hkeep _ k hk

theorem mem_set {t : List (Option Nat)} {j g : Nat} (hj : t[j]? = some none) (x : Nat) :
    (∃ i : Nat, (t.set j (some g))[i]? = some (some x)) ↔ x = g ∨ ∃ i : Nat, t[i]? = some (some x) := by
  have hlt := (List.getElem?_eq_some_iff.1 hj).1
  constructor
  · rintro ⟨i, hi⟩
    by_cases e1 : j = i
    · rw [← e1, List.getElem?_set_self hlt] at hi
      left; simpa using hi.symm
    · rw [List.getElem?_set_ne e1] at hi
      exact Or.inr ⟨i, hi⟩
  · rintro (rfl | ⟨i, hi⟩)
    · exact ⟨j, by rw [List.getElem?_set_self hlt]⟩
    · refine ⟨i, ?_⟩
      rw [List.getElem?_set_ne]
      · exact hi
      · rintro rfl
        rw [hj] at hi
        simp at hi

/-- Search of a grid that is not in the table. -/
theorem scan_new {p : Nat} {t : List (Option Nat)} (hg : Good p t) (hp : 0 < p)
    (hk : ∃ k : Nat, t[k]? = some none) {g : Nat} (hno : ∀ i : Nat, t[i]? ≠ some (some g)) :
    ∃ e, e < p ∧ t[(g % p + e) % p]? = some none ∧
      (∀ d, d < e → ∃ k, t[(g % p + d) % p]? = some (some k)) ∧
      scan t g p (((g % p : Nat) : Int) - 1) (t.length + 1) (g % p) = .ok ((g % p + e) % p, false) := by
  have hh := Nat.mod_lt g hp
  obtain ⟨e, h1, h2, h3⟩ := first_empty hg.len hk hh
  refine ⟨e, h1, h2, h3, ?_⟩
  have := scan_miss (t := t) (g := g) (h := g % p) (stop := ((g % p : Nat) : Int) - 1) (e := e) hp
    (fun d hd => by
      obtain ⟨k, hk⟩ := h3 d hd
      refine ⟨fun hs => ?_, k, fun e => hno _ (e ▸ hk), hk⟩
      have := pos_stop (by omega) hh hs
      omega)
    (Or.inr h2) e 0 (t.length + 1) (by omega) (by rw [hg.len]; omega)
  rwa [show (g % p + 0) % p = g % p from Nat.mod_mod _ _] at this

/-- Search of a grid that is in the table. -/
theorem scan_old {p : Nat} {t : List (Option Nat)} (hg : Good p t) (hp : 0 < p)
    (hk : ∃ k : Nat, t[k]? = some none) {g j : Nat} (hj : t[j]? = some (some g)) :
    scan t g p (((g % p : Nat) : Int) - 1) (t.length + 1) (g % p) = .ok (j, true) ∧
    (j ≠ g % p → g % p + 1 < p →
      scan t g p ((g % p : Nat) : Int) (t.length + 1) (g % p + 1) = .ok (j, true)) := by
  have hh := Nat.mod_lt g hp
  obtain ⟨e, h1, h2, h3⟩ := hg.path j g hj
  have hne : ∀ d, d < e → ∃ k, k ≠ g ∧ t[(g % p + d) % p]? = some (some k) := by
    intro d hd
    obtain ⟨k, hk⟩ := h3 d hd
    refine ⟨k, ?_, hk⟩
    rintro rfl
    have := hg.dist _ _ _ hk hj
    rw [h2] at this
    have := pos_inj (by omega) h1 hh this
    omega
  have hlast : e ≠ p - 1 := by
    intro he
    obtain ⟨i, hi⟩ := hk
    obtain ⟨e', a1, a2, a3⟩ := first_empty hg.len ⟨i, hi⟩ hh
    by_cases h4 : e' = e
    · rw [h4, ← h2, hj] at a2
      simp at a2
    · obtain ⟨k, hk⟩ := h3 e' (by omega)
      rw [a2] at hk
      simp at hk
  have hj' : t[(g % p + e) % p]? = some (some g) := by rw [← h2]; exact hj
  constructor
  · have := scan_hit (t := t) (g := g) (h := g % p) (stop := ((g % p : Nat) : Int) - 1) (e := e) hp 0
      (fun d _ hd => ⟨fun hs => by have := pos_stop (by omega) hh hs; omega, hne d hd⟩)
      (fun hs => hlast (pos_stop h1 hh hs)) hj' e 0 (t.length + 1) (by omega) (by omega)
      (by rw [hg.len]; omega)
    rwa [show (g % p + 0) % p = g % p from Nat.mod_mod _ _, ← h2] at this
  · intro hjh hhp
    have he0 : e ≠ 0 := by
      rintro rfl
      rw [Nat.add_zero, Nat.mod_eq_of_lt hh] at h2
      exact hjh h2
    have hst : ∀ d, 1 ≤ d → d < p → ((g % p + d) % p : Nat) ≠ ((g % p : Nat) : Int) := by
      intro d hd hdp hs
      have : (g % p + d) % p = (g % p + 0) % p := by
        rw [Nat.add_zero, Nat.mod_eq_of_lt hh]
        omega
      have := pos_inj hdp (by omega) hh this
      omega
    have := scan_hit (t := t) (g := g) (h := g % p) (stop := ((g % p : Nat) : Int)) (e := e) hp 1
      (fun d hd hd' => ⟨hst d hd (by omega), hne d hd'⟩)
      (hst e (by omega) h1) hj' (e - 1) 1 (t.length + 1) (by omega) (by omega)
      (by rw [hg.len]; omega)
    rwa [Nat.mod_eq_of_lt hhp, ← h2] at this

/-! ### A larger table -/

theorem rescan_ok {p : Nat} {t : List (Option Nat)} {h : Nat} (hp : 0 < p) (hl : t.length = p) :
    ∀ (fuel d j : Nat), d < p → rescan t p fuel ((h + d) % p) = .ok j →
      (∀ d', d' < d → ∃ k, t[(h + d') % p]? = some (some k)) →
      (∃ k : Nat, t[k]? = some none) → h < p →
      ∃ e, e < p ∧ j = (h + e) % p ∧ t[(h + e) % p]? = some none ∧
        ∀ d', d' < e → ∃ k, t[(h + d') % p]? = some (some k)
  | 0, d, j, _, hr, _, _, _ => by simp [rescan] at hr
  | fuel + 1, d, j, hd, hr, hb, hk, hh => by
    rw [rescan] at hr
    have hlt : (h + d) % p < t.length := by rw [hl]; exact Nat.mod_lt _ hp
    cases hv : t[(h + d) % p]? with
    | none => exact absurd (List.getElem?_eq_none_iff.1 hv) (by omega)
    | some v =>
      rw [read_nat _ _ hv] at hr
      cases v with
      | none =>
        simp only [bind, Except.bind, Except.ok.injEq] at hr
        exact ⟨d, hd, hr.symm, hv, hb⟩
      | some k =>
        simp only [bind, Except.bind] at hr
        rw [step_pos rfl (Nat.mod_lt _ hp)] at hr
        have hb' : ∀ d', d' < d + 1 → ∃ k, t[(h + d') % p]? = some (some k) := by
          intro d' hd'
          by_cases e : d' = d
          · rw [e]; exact ⟨k, hv⟩
          · exact hb d' (by omega)
        have hd1 : d + 1 < p := by
          by_contra hge
          obtain ⟨e', a1, a2, -⟩ := first_empty hl hk hh
          obtain ⟨k', hk'⟩ := hb' e' (by omega)
          rw [a2] at hk'
          simp at hk'
        exact rescan_ok hp hl fuel (d + 1) j hd1 hr hb' hk hh

theorem reinsert_ok {p : Nat} {t t' : List (Option Nat)} (hg : Good p t) (hp : 0 < p)
    (hk : ∃ k : Nat, t[k]? = some none) {g : Nat} (hno : ∀ i : Nat, t[i]? ≠ some (some g))
    (h : reinsert p t g = .ok t') :
    Good p t' ∧ (∀ x : Nat, (∃ i : Nat, t'[i]? = some (some x)) ↔ x = g ∨ ∃ i : Nat, t[i]? = some (some x)) ∧
      t'.countP Option.isSome = t.countP Option.isSome + 1 := by
  have hh := Nat.mod_lt g hp
  have main : ∀ e, e < p → t[(g % p + e) % p]? = some none →
      (∀ d, d < e → ∃ k, t[(g % p + d) % p]? = some (some k)) →
      t' = t.set ((g % p + e) % p) (some g) → Good p t' ∧
      (∀ x : Nat, (∃ i : Nat, t'[i]? = some (some x)) ↔ x = g ∨ ∃ i : Nat, t[i]? = some (some x)) ∧
      t'.countP Option.isSome = t.countP Option.isSome + 1 := by
    rintro e h1 h2 h3 rfl
    exact ⟨hg.insert hp hno h1 h2 h3, mem_set h2, count_set h2⟩
  unfold reinsert at h
  have hlt : g % p < t.length := by rw [hg.len]; exact hh
  cases hv : t[g % p]? with
  | none => exact absurd (List.getElem?_eq_none_iff.1 hv) (by omega)
  | some v =>
    simp only [read_nat _ _ hv] at h
    cases v with
    | none =>
      simp only [bind, Except.bind, Except.ok.injEq] at h
      refine main 0 hp ?_ (by simp) ?_
      · rw [Nat.add_zero, Nat.mod_eq_of_lt hh]; exact hv
      · rw [Nat.add_zero, Nat.mod_eq_of_lt hh]; exact h.symm
    | some k =>
      simp only [bind, Except.bind] at h
      cases hr : rescan t p (p + 1) (g % p + 1) with
      | error f => rw [hr] at h; simp at h
      | ok j =>
        rw [hr] at h
        simp only [Except.ok.injEq] at h
        rcases Nat.lt_or_ge (g % p + 1) p with h1 | h1
        · have hr' : rescan t p (p + 1) ((g % p + 1) % p) = .ok j := by
            rw [Nat.mod_eq_of_lt h1]; exact hr
          obtain ⟨e, a1, a2, a3, a4⟩ := rescan_ok hp hg.len (p + 1) 1 j (by omega) hr'
            (by
              intro d' hd'
              have : d' = 0 := by omega
              subst this
              rw [Nat.add_zero, Nat.mod_eq_of_lt hh]
              exact ⟨k, hv⟩) hk hh
          rw [a2] at h
          exact main e a1 a3 a4 h.symm
        · exfalso
          have h2 : t[g % p + 1]? = none := by
            rw [List.getElem?_eq_none_iff, hg.len]
            exact h1
          have h3 : read t ((g % p + 1 : Nat) : Int) = .error .outside := by
            generalize g % p + 1 = k at h2
            simp [read, h2]
          rw [rescan, h3] at hr
          simp [bind, Except.bind] at hr

theorem refill_ok {p : Nat} (hp : 0 < p) : ∀ (old t t' : List (Option Nat)), Good p t →
    (∀ i j g : Nat, old[i]? = some (some g) → old[j]? = some (some g) → i = j) →
    (∀ i j g : Nat, old[i]? = some (some g) → t[j]? ≠ some (some g)) →
    t.countP Option.isSome + old.countP Option.isSome < p → refill p old t = .ok t' →
    Good p t' ∧ (∀ x : Nat, (∃ i : Nat, t'[i]? = some (some x)) ↔
      (∃ i : Nat, old[i]? = some (some x)) ∨ ∃ i : Nat, t[i]? = some (some x)) ∧
      t'.countP Option.isSome = t.countP Option.isSome + old.countP Option.isSome
  | [], t, t', hg, _, _, _, h => by
    simp only [refill, Except.ok.injEq] at h
    subst h
    exact ⟨hg, by simp, by simp⟩
  | none :: old, t, t', hg, hd, hn, hc, h => by
    simp only [refill] at h
    have := refill_ok hp old t t' hg (fun i j g h1 h2 => by
        have := hd (i + 1) (j + 1) g (by simpa using h1) (by simpa using h2)
        omega)
      (fun i j g h1 => hn (i + 1) j g (by simpa using h1)) (by simpa using hc) h
    refine ⟨this.1, fun x => ?_, by simpa using this.2.2⟩
    rw [this.2.1 x]
    constructor
    · rintro (⟨i, hi⟩ | h)
      · exact Or.inl ⟨i + 1, by simpa using hi⟩
      · exact Or.inr h
    · rintro (⟨i, hi⟩ | h)
      · cases i with
        | zero => simp at hi
        | succ i => exact Or.inl ⟨i, by simpa using hi⟩
      · exact Or.inr h
  | some g :: old, t, t', hg, hd, hn, hc, h => by
    rw [refill] at h
    cases hr : reinsert p t g with
    | error f => rw [hr] at h; simp [bind, Except.bind] at h
    | ok t1 =>
      rw [hr] at h
      simp only [bind, Except.bind] at h
      simp only [List.countP_cons, Option.isSome_some, if_true] at hc
      obtain ⟨b1, b2, b3⟩ := reinsert_ok hg hp
        (empty_of_count (by rw [hg.len]; omega)) (fun i => hn 0 i g (by simp)) hr
      have := refill_ok hp old t1 t' b1 (fun i j g h1 h2 => by
          have := hd (i + 1) (j + 1) g (by simpa using h1) (by simpa using h2)
          omega)
        (fun i j x h1 h2 => by
          rcases (b2 x).1 ⟨j, h2⟩ with rfl | ⟨k, hk⟩
          · have := hd 0 (i + 1) x (by simp) (by simpa using h1)
            omega
          · exact hn (i + 1) k x (by simpa using h1) hk)
        (by omega) h
      refine ⟨this.1, fun x => ?_, ?_⟩
      · rw [this.2.1 x, b2 x]
        constructor
        · rintro (⟨i, hi⟩ | rfl | h)
          · exact Or.inl ⟨i + 1, by simpa using hi⟩
          · exact Or.inl ⟨0, by simp⟩
          · exact Or.inr h
        · rintro (⟨i, hi⟩ | h)
          · cases i with
            | zero => simp at hi; exact Or.inr (Or.inl hi.symm)
            | succ i => exact Or.inl ⟨i, by simpa using hi⟩
          · exact Or.inr (Or.inr h)
      · rw [this.2.2, b3]
        simp only [List.countP_cons, Option.isSome_some, if_true]
        omega

theorem Good.empty (p : Nat) : Good p (List.replicate p none) := by
  have h : ∀ (i g : Nat), (List.replicate p (none : Option Nat))[i]? ≠ some (some g) := by
    intro i g h
    have := List.mem_of_getElem? h
    rw [List.mem_replicate] at this
    simp at this
  exact ⟨List.length_replicate, fun i j g h1 => absurd h1 (h i g), fun i g h1 => absurd h1 (h i g)⟩

/-! ### Invariant of an output grid -/

/-- The input grids of `o` are `S`. -/
structure Inv (S : List Nat) (o : Out) : Prop where
  nodup : S.Nodup
  n : o.n = S.length
  mem : ∀ g : Nat, g ∈ S ↔ ∃ i, At o i g
  ex : ∃ p, primes[o.log]? = some p ∧ 7 ≤ o.log ∧ Good p o.gset ∧
    o.gset.countP Option.isSome = o.n ∧ o.n < p / 2

def Ready (S : List Nat) (o : Out) : Prop := (S = [] ∧ o.n = 0) ∨ (S ≠ [] ∧ Inv S o)

/-- The table that `defset` works on. -/
def start (o : Out) : Out :=
  if o.n = 0 then { o with gset := List.replicate 127 none, log := 7 } else o

theorem Ready.start {S : List Nat} {o : Out} (h : Ready S o) : Inv S (start o) := by
  rcases h with ⟨rfl, h⟩ | ⟨h1, h2⟩
  · refine ⟨.nil, ?_, ?_, 127, ?_⟩
    · rw [EzSets.start, if_pos h]; exact h
    · intro g
      rw [EzSets.start, if_pos h]
      refine ⟨fun h => by simp at h, ?_⟩
      rintro ⟨i, hi⟩
      have := List.mem_of_getElem? hi
      rw [List.mem_replicate] at this
      simp at this
    · rw [EzSets.start, if_pos h]
      exact ⟨rfl, Nat.le_refl 7, Good.empty 127, by simpa [List.countP_replicate] using h.symm, by rw [h]; decide⟩
  · have : o.n ≠ 0 := by
      rw [h2.n]
      have := List.length_pos_of_ne_nil h1
      omega
    rw [EzSets.start, if_neg this]
    exact h2

theorem prime_pos {l p : Nat} (h : primes[l]? = some p) (h7 : 7 ≤ l) : 127 ≤ p ∧ p ≤ 4093 ∧ l ≤ 12 := by
  have hl : l < 13 := (List.getElem?_eq_some_iff.1 h).1
  interval_cases l <;> simp [primes] at h <;> omega

theorem prime_next {l p q : Nat} (h : primes[l]? = some p) (h7 : 7 ≤ l) (h' : primes[l + 1]? = some q) :
    p / 2 < q / 2 := by
  have hl : l + 1 < 13 := (List.getElem?_eq_some_iff.1 h').1
  have : l < 12 := by omega
  interval_cases l <;> simp [primes] at h h' <;> omega

theorem reallocate_inv {S : List Nat} {o o' : Out} {p : Nat} (hnd : S.Nodup) (hn : o.n = S.length)
    (hmem : ∀ g : Nat, g ∈ S ↔ ∃ i, At o i g) (hp : primes[o.log]? = some p) (h7 : 7 ≤ o.log)
    (hg : Good p o.gset) (hc : o.gset.countP Option.isSome = o.n) (hle : o.n ≤ p / 2)
    (h : reallocate o = .ok o') : Inv S o' ∧ o'.log = o.log + 1 ∧ o'.last = o.last := by
  unfold reallocate at h
  cases hq : primes[o.log + 1]? with
  | none => simp [prime, hq, bind, Except.bind] at h
  | some q =>
    simp only [prime, hq, bind, Except.bind] at h
    cases hr : refill q o.gset (List.replicate q none) with
    | error f => rw [hr] at h; simp at h
    | ok t =>
      rw [hr] at h
      simp only [Except.ok.injEq] at h
      have hq7 := prime_pos hq (by omega)
      have hpq := prime_next hp h7 hq
      have hz : (List.replicate q (none : Option Nat)).countP Option.isSome = 0 := by
        rw [List.countP_eq_zero]
        intro v hv
        rw [(List.mem_replicate.1 hv).2]
        simp
      have hno : ∀ (i g : Nat), (List.replicate q (none : Option Nat))[i]? ≠ some (some g) := by
        intro i g h
        have := List.mem_of_getElem? h
        rw [List.mem_replicate] at this
        simp at this
      obtain ⟨b1, b2, b3⟩ := refill_ok (by omega) o.gset _ t (Good.empty q) hg.dist
        (fun i j g _ => hno j g) (by rw [hz, hc]; omega) hr
      subst h
      refine ⟨⟨hnd, hn, ?_, q, hq, by show 7 ≤ o.log + 1; omega, b1, ?_, by show o.n < _; omega⟩, rfl, rfl⟩
      · intro g
        rw [hmem g]
        show _ ↔ ∃ i : Nat, t[i]? = some (some g)
        rw [b2 g]
        constructor
        · exact Or.inl
        · rintro (h | ⟨i, hi⟩)
          · exact h
          · exact absurd hi (hno i g)
      · show t.countP _ = o.n
        rw [b3, hz, hc]
        omega

/-- One call. -/
theorem defset_inv {S : List Nat} {o o' : Out} (h : Ready S o) {g : Nat} (hd : defset o g = .ok o') :
    Ready (if g ∈ S then S else S ++ [g]) o' := by
  have hI := h.start
  have hdef : defset o g = (do
      let p ← prime (start o).log
      let home := g % p
      if (← read (start o).gset home) = some g then .ok (start o)
      else
        let (i, found) ← scan (start o).gset g p ((home : Int) - 1) ((start o).gset.length + 1) home
        if found then .ok { start o with last := g }
        else
          let o := { start o with gset := (start o).gset.set i (some g), n := (start o).n + 1 }
          if o.n ≥ p / 2 then reallocate o else .ok o) := rfl
  rw [hdef] at hd
  clear hdef
  generalize start o = s at hI hd
  obtain ⟨hnd, hn, hmem, p, hp, h7, hg, hc, hlt⟩ := hI
  have hpp := prime_pos hp h7
  have hp0 : 0 < p := by omega
  have hk := empty_of_count (t := s.gset) (by rw [hc, hg.len]; omega)
  simp only [prime, hp, bind, Except.bind] at hd
  have hhome : g % p < s.gset.length := by rw [hg.len]; exact Nat.mod_lt _ hp0
  rw [read_nat _ _ (List.getElem?_eq_getElem hhome)] at hd
  simp only at hd
  by_cases hin : g ∈ S
  · rw [if_pos hin]
    have hne : S ≠ [] := by rintro rfl; simp at hin
    obtain ⟨j, hj⟩ := (hmem g).1 hin
    right
    refine ⟨hne, ?_⟩
    split at hd
    · simp only [Except.ok.injEq] at hd
      subst hd
      exact ⟨hnd, hn, hmem, p, hp, h7, hg, hc, hlt⟩
    · rw [(scan_old hg hp0 hk hj).1] at hd
      simp only [if_true, Except.ok.injEq] at hd
      subst hd
      exact ⟨hnd, hn, hmem, p, hp, h7, hg, hc, hlt⟩
  · rw [if_neg hin]
    have hno : ∀ i : Nat, s.gset[i]? ≠ some (some g) := fun i hi => hin ((hmem g).2 ⟨i, hi⟩)
    right
    refine ⟨by simp, ?_⟩
    rw [if_neg (fun e => hno _ (by rw [List.getElem?_eq_getElem hhome, e]))] at hd
    obtain ⟨e, h1, h2, h3, h4⟩ := scan_new hg hp0 hk hno
    rw [h4] at hd
    simp only [Bool.false_eq_true, if_false] at hd
    have hG := hg.insert hp0 hno h1 h2 h3
    have hC := count_set (g := g) h2
    have hM := mem_set (g := g) h2
    have hnd' : (S ++ [g]).Nodup := by
      rw [List.nodup_append]
      refine ⟨hnd, by simp, ?_⟩
      intro a ha b hb
      rw [List.mem_singleton.1 hb]
      rintro rfl
      exact hin ha
    have hmem' : ∀ x : Nat, x ∈ S ++ [g] ↔
        ∃ i : Nat, (s.gset.set ((g % p + e) % p) (some g))[i]? = some (some x) := by
      intro x
      rw [hM x, List.mem_append, List.mem_singleton, hmem x, or_comm]
      rfl
    split at hd
    · exact (reallocate_inv (S := S ++ [g]) (p := p)
        (o := { s with gset := s.gset.set ((g % p + e) % p) (some g), n := s.n + 1 })
        hnd' (by simp [hn]) hmem' hp h7 hG
        (by show _ = s.n + 1; rw [hC, hc]) (by show s.n + 1 ≤ _; omega) hd).1
    · rename_i hge
      simp only [Except.ok.injEq] at hd
      subst hd
      exact ⟨hnd', by simp [hn], hmem', p, hp, h7, hG, by show _ = s.n + 1; rw [hC, hc],
        by show s.n + 1 < _; simp at hge; omega⟩

theorem defAll_inv : ∀ (gs : List Nat) (S : List Nat) (o o' : Out), Ready S o →
    defAll o gs = .ok o' → ∃ S', Ready S' o' ∧ ∀ g, g ∈ S' ↔ g ∈ S ∨ g ∈ gs
  | [], S, o, o', h, hd => by
    simp only [defAll, Except.ok.injEq] at hd
    subst hd
    exact ⟨S, h, by simp⟩
  | g :: gs, S, o, o', h, hd => by
    rw [defAll] at hd
    cases hr : defset o g with
    | error f => rw [hr] at hd; simp [bind, Except.bind] at hd
    | ok o1 =>
      rw [hr] at hd
      simp only [bind, Except.bind] at hd
      obtain ⟨S', h1, h2⟩ := defAll_inv gs _ o1 o' (defset_inv h hr) hd
      refine ⟨S', h1, fun x => ?_⟩
      rw [h2 x]
      by_cases hin : g ∈ S
      · rw [if_pos hin, List.mem_cons]
        constructor
        · rintro (h | h)
          · exact Or.inl h
          · exact Or.inr (Or.inr h)
        · rintro (h | rfl | h)
          · exact Or.inl h
          · exact Or.inl hin
          · exact Or.inr h
      · rw [if_neg hin, List.mem_append, List.mem_singleton, List.mem_cons, or_assoc]

theorem Ready.at {S : List Nat} {o : Out} (h : Ready S o) (hS : S ≠ []) : Inv S o := by
  rcases h with ⟨h, _⟩ | ⟨_, h⟩
  · exact absurd h hS
  · exact h

theorem nodup_length {S gs : List Nat} (hS : S.Nodup) (h : ∀ g, g ∈ S ↔ g ∈ gs) :
    S.length = gs.dedup.length := by
  apply List.Perm.length_eq
  rw [List.perm_ext_iff_of_nodup hS (List.nodup_dedup gs)]
  intro g
  rw [h g, List.mem_dedup]

/-- Whatever the numbers of the grids: after calls of `c_ezdefset` which do not fail, the table has one
place for each input grid of the calls and none for others. -/
theorem C75_define (last : Int) (gs : List Nat) (o : Out) (hgs : gs ≠ [])
    (h : defAll (fresh last) gs = .ok o) :
    (∀ g, (∃ i, At o i g) ↔ g ∈ gs) ∧ (∀ i j g, At o i g → At o j g → i = j) ∧
      o.n = gs.dedup.length := by
  obtain ⟨S, h1, h2⟩ := defAll_inv gs [] (fresh last) o (Or.inl ⟨rfl, rfl⟩) h
  have hS : S ≠ [] := by
    obtain ⟨g, hg⟩ := List.exists_mem_of_ne_nil gs hgs
    exact List.ne_nil_of_mem ((h2 g).2 (Or.inr hg))
  obtain ⟨hnd, hn, hmem, p, hp, h7, hg, hc, hlt⟩ := h1.at hS
  have h3 : ∀ g, g ∈ S ↔ g ∈ gs := fun g => by rw [h2 g]; simp
  exact ⟨fun g => by rw [← hmem g, h3 g], hg.dist, by rw [hn, nodup_length hnd h3]⟩

/-- Calls for 2046 input grids fail. -/
theorem C75_limit (last : Int) (gs : List Nat) (o : Out) (h : defAll (fresh last) gs = .ok o) :
    gs.dedup.length < 2046 := by
  by_cases hgs : gs = []
  · subst hgs; simp
  · obtain ⟨S, h1, h2⟩ := defAll_inv gs [] (fresh last) o (Or.inl ⟨rfl, rfl⟩) h
    have hS : S ≠ [] := by
      obtain ⟨g, hg⟩ := List.exists_mem_of_ne_nil gs hgs
      exact List.ne_nil_of_mem ((h2 g).2 (Or.inr hg))
    obtain ⟨hnd, hn, hmem, p, hp, h7, hg, hc, hlt⟩ := h1.at hS
    have h3 : ∀ g, g ∈ S ↔ g ∈ gs := fun g => by rw [h2 g]; simp
    rw [← nodup_length hnd h3, ← hn]
    have := prime_pos hp h7
    omega

end Verif.EzSets
