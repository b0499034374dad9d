import Verif.ApplVar
import Mathlib.Tactic

namespace Verif.ApplVar

/-! # C146: variables of an application -/

/-- A set of names which can be used together: at most 1024, none of them blank, and none of them the beginning of
another, in upper or lower case. -/
structure Names (N : List (List Nat)) : Prop where
  few : N.length ≤ 1024
  full : ∀ n ∈ N, trim n = n ∧ n ≠ []
  apart : ∀ a ∈ N, ∀ b ∈ N, a.map lower <+: b.map lower → a = b

/-- The variables are set one after the other: name, value and the bytes malloc leaves. -/
def sets : List (List Nat × List Nat × Nat × Nat) → List Entry → Option (List Entry)
  | [], t => some t
  | o :: os, t => (set t o.1 o.2.1 o.2.2.1 o.2.2.2).bind (sets os)

theorem ncmp_diff (f : Nat → Nat) : ∀ (a b : List Nat) (j : Nat), ¬ a.map f <+: b.map f → ¬ b.map f <+: a.map f →
    ncmp f a (b ++ [j]) = some false := by
  intro a
  induction a with
  | nil => intro b j h; simp at h
  | cons x a ih =>
    intro b j h1 h2
    cases b with
    | nil => simp at h2
    | cons y b =>
      simp only [List.cons_append, ncmp]
      by_cases hxy : f x = f y
      · rw [if_pos hxy]
        simp only [List.map_cons, hxy, List.cons_prefix_cons, true_and] at h1 h2
        exact ih b j h1 h2
      · rw [if_neg hxy]

theorem ncmp_same (f : Nat → Nat) : ∀ (a c : List Nat), ncmp f a (a ++ c) = some true := by
  intro a
  induction a with
  | nil => intro c; rfl
  | cons x a ih => intro c; simp [ncmp, ih]

theorem find_spec (f : Nat → Nat) (n : List Nat) : ∀ (t : List Entry) (i : Nat),
    (∀ e ∈ t, e.name = n ∨ (¬ n.map f <+: e.name.map f ∧ ¬ e.name.map f <+: n.map f)) →
    find f n t i = some ((t.findIdx? (fun e => decide (e.name = n))).map (· + i)) := by
  intro t
  induction t with
  | nil => intro i _; rfl
  | cons e t ih =>
    intro i h
    rw [find, List.findIdx?_cons]
    by_cases he : e.name = n
    · rw [he, ncmp_same]; simp
    · obtain ⟨h1, h2⟩ := (h e (by simp)).resolve_left he
      rw [ncmp_diff f _ _ _ h1 h2]
      simp only [he, decide_false, Bool.false_eq_true, if_false]
      rw [ih (i + 1) (fun e' he' => h e' (by simp [he']))]
      cases t.findIdx? (fun e => decide (e.name = n)) with
      | none => rfl
      | some k => simp; omega

/-- The entry of a name. -/
def look (t : List Entry) (n : List Nat) : Option Entry := t.find? (fun e => decide (e.name = n))

theorem look_idx (n : List Nat) : ∀ t : List Entry, ∀ i, t.findIdx? (fun e => decide (e.name = n)) = some i →
    t[i]? = look t n := by
  intro t
  induction t with
  | nil => intro i h; simp at h
  | cons e t ih =>
    intro i h
    rw [List.findIdx?_cons] at h
    by_cases he : e.name = n
    · simp [he] at h; subst h; simp [look, he]
    · simp [he] at h
      obtain ⟨k, hk, rfl⟩ := h
      simp only [look, List.find?_cons, he, decide_false, List.getElem?_cons_succ]
      exact ih k hk

theorem look_set (n : List Nat) (e0 : Entry) (he0 : e0.name = n) (n' : List Nat) : ∀ t : List Entry, ∀ i,
    t.findIdx? (fun e => decide (e.name = n)) = some i →
    look (t.set i e0) n' = (if n' = n then some e0 else look t n') ∧ (t.set i e0).map (·.name) = t.map (·.name) := by
  intro t
  induction t with
  | nil => intro i h; simp at h
  | cons e t ih =>
    intro i h
    rw [List.findIdx?_cons] at h
    by_cases he : e.name = n
    · simp [he] at h
      subst h
      constructor
      · simp only [look, List.set_cons_zero, List.find?_cons, he0, he]
        by_cases hn : n' = n
        · simp [hn]
        · have : ¬ n = n' := fun h => hn h.symm
          simp [hn, this]
      · simp [he0, he]
    · simp [he] at h
      obtain ⟨k, hk, rfl⟩ := h
      obtain ⟨h1, h2⟩ := ih k hk
      constructor
      · simp only [List.set_cons_succ, look, List.find?_cons]
        by_cases hn : e.name = n'
        · have : ¬ n' = n := fun h => he (by rw [hn, h])
          simp [hn, this]
        · simp only [hn, decide_false]
          exact h1
      · simp only [List.set_cons_succ, List.map_cons, h2]

theorem look_append (n : List Nat) (e0 : Entry) (he0 : e0.name = n) (n' : List Nat) (t : List Entry)
    (h : t.findIdx? (fun e => decide (e.name = n)) = none) :
    look (t ++ [e0]) n' = if n' = n then some e0 else look t n' := by
  have hno : look t n = none := by
    rw [List.findIdx?_eq_none_iff] at h
    simp only [look, List.find?_eq_none]
    intro e he; simpa using h e he
  unfold look at *
  rw [List.find?_append]
  by_cases hn : n' = n
  · subst hn; simp [hno, he0]
  · have : ¬ n = n' := fun h => hn h.symm
    simp [hn, he0, this]

theorem set_spec {N : List (List Nat)} (hN : Names N) {t : List Entry} (ht : (t.map (·.name)).Nodup)
    (hs : ∀ e ∈ t, e.name ∈ N) (n v : List Nat) (jn jv : Nat) (hn : trim n ∈ N) :
    ∃ t', set t n v jn jv = some t' ∧ (t'.map (·.name)).Nodup ∧ (∀ e ∈ t', e.name ∈ N) ∧
      ∀ n', look t' n' = if n' = trim n then some ⟨trim n, jn, trim v, jv⟩ else look t n' := by
  have hne := (hN.full _ hn).2
  have hf := find_spec id (trim n) t 0 (fun e he => by
    by_cases h : e.name = trim n
    · exact Or.inl h
    · refine Or.inr ⟨fun hp => h ?_, fun hp => h ?_⟩
      · simp only [List.map_id] at hp
        exact (hN.apart _ hn _ (hs e he) (hp.map lower)).symm
      · simp only [List.map_id] at hp
        exact hN.apart _ (hs e he) _ hn (hp.map lower))
  unfold set
  simp only [hne, if_false, hf]
  cases hi : t.findIdx? (fun e => decide (e.name = trim n)) with
  | some i =>
    simp only [Option.map_some, Nat.add_zero]
    refine ⟨_, rfl, ?_, ?_, fun n' => (look_set (trim n) _ rfl n' t i hi).1⟩
    · rw [(look_set (trim n) _ rfl [] t i hi).2]; exact ht
    · intro e he
      have : e.name ∈ (t.set i ⟨trim n, jn, trim v, jv⟩).map (·.name) := List.mem_map.mpr ⟨e, he, rfl⟩
      rw [(look_set (trim n) _ rfl [] t i hi).2] at this
      obtain ⟨e', he', h⟩ := List.mem_map.mp this
      rw [← h]; exact hs e' he'
  | none =>
    simp only [Option.map_none]
    have hnot : ∀ e ∈ t, e.name ≠ trim n := by
      rw [List.findIdx?_eq_none_iff] at hi
      intro e he; simpa using hi e he
    have hnd : ((t ++ [(⟨trim n, jn, trim v, jv⟩ : Entry)]).map (·.name)).Nodup := by
      rw [List.map_append, List.nodup_append]
      refine ⟨ht, by simp, ?_⟩
      intro a ha b hb
      obtain ⟨e, he, rfl⟩ := List.mem_map.mp ha
      simp at hb; subst hb
      exact hnot e he
    have hin : ∀ e ∈ t ++ [(⟨trim n, jn, trim v, jv⟩ : Entry)], e.name ∈ N := by
      intro e he
      rcases List.mem_append.mp he with h | h
      · exact hs e h
      · simp at h; subst h; exact hn
    have hlen : (t ++ [(⟨trim n, jn, trim v, jv⟩ : Entry)]).length ≤ N.length := by
      rw [← List.length_map (f := (·.name))]
      exact (List.subperm_of_subset hnd (by
        intro a ha
        obtain ⟨e, he, rfl⟩ := List.mem_map.mp ha
        exact hin e he)).length_le
    have hroom : t.length < maxEntries := by
      have := hN.few
      simp at hlen
      unfold maxEntries; omega
    rw [if_pos hroom]
    exact ⟨_, rfl, hnd, hin, fun n' => look_append (trim n) _ rfl n' t hi⟩

/-- The last setting of a name. -/
def last (n : List Nat) : List (List Nat × List Nat × Nat × Nat) → Option Entry → Option Entry
  | [], e => e
  | o :: os, e => last n os (if n = trim o.1 then some ⟨trim o.1, o.2.2.1, trim o.2.1, o.2.2.2⟩ else e)

theorem sets_spec {N : List (List Nat)} (hN : Names N) : ∀ (os : List (List Nat × List Nat × Nat × Nat)) (t : List Entry),
    (∀ o ∈ os, trim o.1 ∈ N) → (t.map (·.name)).Nodup → (∀ e ∈ t, e.name ∈ N) →
    ∃ t', sets os t = some t' ∧ (∀ e ∈ t', e.name ∈ N) ∧ ∀ n, look t' n = last n os (look t n) := by
  intro os
  induction os with
  | nil => intro t _ _ h; exact ⟨t, rfl, h, fun n => rfl⟩
  | cons o os ih =>
    intro t ho ht hs
    obtain ⟨t1, e1, e2, e3, e4⟩ := set_spec hN ht hs o.1 o.2.1 o.2.2.1 o.2.2.2 (ho o (by simp))
    obtain ⟨t2, f1, f2, f3⟩ := ih t1 (fun o' h => ho o' (by simp [h])) e2 e3
    refine ⟨t2, by simp [sets, e1, f1], f2, fun n => ?_⟩
    rw [f3, e4]; rfl

theorem ncpy_spec : ∀ (v : List Nat) (j lng : Nat), (∀ c ∈ v, c ≠ 0) → v.length ≤ lng → (j = 0 ∨ lng ≤ v.length + 1) →
    ∃ w, ncpy lng (v ++ [j]) = some w ∧ w.length = lng ∧ w.take v.length = v := by
  intro v
  induction v with
  | nil =>
    intro j lng _ _ hj
    cases lng with
    | zero => exact ⟨[], rfl, rfl, rfl⟩
    | succ lng =>
      by_cases h0 : j = 0
      · exact ⟨List.replicate (lng + 1) 0, by simp [ncpy, h0], by simp, by simp⟩
      · have : lng = 0 := by
          rcases hj with hj | hj
          · exact absurd hj h0
          · simp at hj; omega
        subst this
        exact ⟨[j], by simp [ncpy, h0], rfl, rfl⟩
  | cons c v ih =>
    intro j lng hc hl hj
    cases lng with
    | zero => simp at hl
    | succ lng =>
      obtain ⟨w, h1, h2, h3⟩ := ih j lng (fun c' h => hc c' (by simp [h])) (by simpa using hl) (by
        rcases hj with hj | hj
        · exact Or.inl hj
        · exact Or.inr (by simpa using hj))
      refine ⟨c :: w, ?_, by simp [h2], by simp [h3]⟩
      simp [ncpy, hc c (by simp), h1]

/-- C146.  If no name used is the beginning of another, the variables can be set one after the other, and a variable has
the value it was set to last, without its trailing blanks; a variable not set is blank.  Nothing before the value is
written. -/
theorem C146 {N : List (List Nat)} (hN : Names N) (os : List (List Nat × List Nat × Nat × Nat))
    (ho : ∀ o ∈ os, trim o.1 ∈ N) (n : List Nat) (hn : trim n ∈ N) (m : Int → Nat) (lv : Nat) :
    ∃ t, sets os [] = some t ∧
      match last (trim n) os none with
      | none => ∃ m', get77 m t n lv = some (0, m') ∧ (∀ a : Int, 0 ≤ a → a ≤ lv → m' a = 32) ∧ ∀ a : Int, a < 0 ∨ lv < a → m' a = m a
      | some e => (∀ c ∈ e.value, c ≠ 0) → e.value.length ≤ lv → (e.jv = 0 ∨ lv ≤ e.value.length + 1) →
          ∃ m', get77 m t n lv = some ((e.value.length : Int), m') ∧
            (∀ i (h : i < e.value.length), m' (i : Int) = e.value[i]) ∧
            (∀ a : Int, e.value.length ≤ a → a ≤ lv → m' a = 32) ∧ ∀ a : Int, a < 0 ∨ lv < a → m' a = m a := by
  obtain ⟨t, h1, h2, h3⟩ := sets_spec hN os [] ho (by simp) (by simp)
  have hne := (hN.full _ hn).2
  refine ⟨t, h1, ?_⟩
  have hl : last (trim n) os none = look t (trim n) := by rw [h3]; rfl
  rw [hl]
  have hf := find_spec lower (trim n) t 0 (fun e he => by
    by_cases h : e.name = trim n
    · exact Or.inl h
    · exact Or.inr ⟨fun hp => h (hN.apart _ hn _ (h2 e he) hp).symm, fun hp => h (hN.apart _ (h2 e he) _ hn hp)⟩)
  cases hi : t.findIdx? (fun e => decide (e.name = trim n)) with
  | none =>
    have hno : look t (trim n) = none := by
      rw [List.findIdx?_eq_none_iff] at hi
      simp only [look, List.find?_eq_none]
      intro e he; simpa using hi e he
    rw [hi] at hf
    simp only [hno, get77, get, hne, if_false, hf, Option.map_none, Option.map_some]
    refine ⟨_, rfl, fun a k1 k2 => by simp [k1, k2], fun a ha => ?_⟩
    rw [if_neg (by omega), write, if_neg (by simp)]
  | some i =>
    have hlook := look_idx _ _ _ hi
    have hsome : ∃ e, t[i]? = some e := by
      obtain ⟨hlt, _⟩ := List.findIdx?_eq_some_iff_getElem.mp hi
      exact ⟨t[i], List.getElem?_eq_getElem hlt⟩
    obtain ⟨e, he⟩ := hsome
    rw [← hlook, he]
    simp only
    intro hc hlen hj
    obtain ⟨w, w1, w2, w3⟩ := ncpy_spec e.value e.jv lv hc hlen hj
    rw [hi] at hf
    simp only [get77, get, hne, if_false, hf, Option.map_some, Nat.add_zero, he, w1, if_pos hlen]
    refine ⟨_, rfl, ?_, ?_, ?_⟩
    · intro k hk
      rw [if_neg (by omega), write, if_pos (by omega)]
      have : e.value[k] = w[k]'(by omega) := by
        have : (w.take e.value.length)[k]'(by simp; omega) = w[k]'(by omega) := List.getElem_take
        rw [← this]; congr 1; exact w3.symm
      rw [this]
      simp [List.getD_eq_getElem?_getD, List.getElem?_eq_getElem (show k < w.length by omega)]
    · intro a k1 k2; simp [k1, k2]
    · intro a ha
      rw [if_neg (by omega), write, if_neg (by omega)]

example : Names [[65, 66], [65, 67, 68]] :=
  ⟨by decide, by decide, by decide⟩

/-- C146.  A blank is written one place behind the value in each call which returns, found or not. -/
theorem C146_one_past (m : Int → Nat) (t : List Entry) (n : List Nat) (lv : Nat) (r : Int) (m' : Int → Nat)
    (h : get77 m t n lv = some (r, m')) : m' lv = 32 := by
  unfold get77 at h
  rw [Option.map_eq_some_iff] at h
  obtain ⟨⟨r', w⟩, hg, h⟩ := h
  simp only [Prod.mk.injEq] at h
  obtain ⟨rfl, rfl⟩ := h
  have : r' ≤ lv := by
    simp only [get] at hg
    split at hg
    · simp at hg
    · split at hg
      · simp at hg
      · simp at hg; omega
      · split at hg
        · simp at hg
        · rw [Option.map_eq_some_iff] at hg
          obtain ⟨_, _, hg⟩ := hg
          simp only [Prod.mk.injEq] at hg
          rw [← hg.1]; split <;> omega
  simp [this]

example : ∃ m', get77 (fun _ => 1) [⟨[65], 0, [66], 0⟩] [65] 3 = some (1, m') ∧ m' 3 = 32 := ⟨_, rfl, by decide +kernel⟩

/-- C146.  A value too long for the caller is lost, and as many places before the caller's variable are overwritten with blanks. -/
theorem C146_too_long (m : Int → Nat) (e : Entry) (n : List Nat) (lv : Nat) (hn : trim n = e.name) (hne : e.name ≠ [])
    (hc : ∀ c ∈ e.value, c ≠ 0) (hl : lv < e.value.length) :
    ∃ m', get77 m [e] n lv = some (-(e.value.length : Int), m') ∧ ∀ a : Int, -(e.value.length : Int) ≤ a → a ≤ lv → m' a = 32 := by
  have hw : ∀ (v : List Nat) (k : Nat), (∀ c ∈ v, c ≠ 0) → k ≤ v.length → ∃ w, ncpy k (v ++ [e.jv]) = some w := by
    intro v
    induction v with
    | nil => intro k _ hk; simp at hk; subst hk; exact ⟨[], rfl⟩
    | cons c v ih =>
      intro k hv hk
      cases k with
      | zero => exact ⟨[], rfl⟩
      | succ k =>
        obtain ⟨w, hw⟩ := ih k (fun c' h => hv c' (by simp [h])) (by simpa using hk)
        exact ⟨c :: w, by simp [ncpy, hv c (by simp), hw]⟩
  obtain ⟨w, hw⟩ := hw e.value lv hc (by omega)
  have hf : find lower e.name [e] 0 = some (some 0) := by simp [find, ncmp_same]
  simp only [get77, get, hn, hne, if_false, hf, List.getElem?_cons_zero, hw, Option.map_some, if_neg (not_le.mpr hl)]
  exact ⟨_, rfl, fun a k1 k2 => by simp [k1, k2]⟩

example : (lv : Nat) → lv = 1 → ∃ m', get77 (fun _ => 1) [⟨[65], 0, [66, 67, 68], 0⟩] [65] lv = some (-3, m') ∧ m' (-3) = 32 :=
  fun _ h => ⟨_, by subst h; rfl, by subst h; decide +kernel⟩

/-- C146.  Setting `AB` replaces the variable `ABC`; the value of `ABC` is then that of nothing, and `A` finds it. -/
theorem C146_prefix_witness :
    sets [([65, 66, 67], [49], 0, 0), ([65, 66], [50], 0, 0)] [] = some [⟨[65, 66], 0, [50], 0⟩] ∧
    get [⟨[65, 66], 0, [50], 0⟩] [65, 66, 67] 1 = some (0, []) ∧
    get [⟨[65, 66], 0, [50], 0⟩] [65] 1 = some (1, [50]) := by decide +kernel

/-- C146.  `set` tells `ab` from `AB`, `get` does not: the value of `AB` cannot be had. -/
theorem C146_case_witness :
    sets [([97, 98], [49], 0, 0), ([65, 66], [50], 0, 0)] [] = some [⟨[97, 98], 0, [49], 0⟩, ⟨[65, 66], 0, [50], 0⟩] ∧
    get [⟨[97, 98], 0, [49], 0⟩, ⟨[65, 66], 0, [50], 0⟩] [65, 66] 1 = some (1, [49]) := by decide +kernel

/-- C146.  The bytes behind the strings matter: with another byte than 0 behind the name `A`, the name `AB` is found or a
fault occurs. -/
theorem C146_junk_witness :
    sets [([65], [49], 66, 0), ([65, 66], [50], 0, 0)] [] = some [⟨[65, 66], 0, [50], 0⟩] ∧
    sets [([65], [49], 66, 0), ([65, 66, 67], [50], 0, 0)] [] = none := by decide +kernel

/-- C146.  What `trim` takes away are the trailing blanks, and all of them. -/
theorem C146_trim (s : List Nat) : (∃ k, s = trim s ++ List.replicate k 32) ∧ (trim s).getLast? ≠ some 32 := by
  constructor
  · refine ⟨(s.reverse.takeWhile (· == 32)).length, ?_⟩
    have h1 := List.takeWhile_append_dropWhile (p := (· == 32)) (l := s.reverse)
    have h2 : s.reverse.takeWhile (· == 32) = List.replicate (s.reverse.takeWhile (· == 32)).length 32 := by
      rw [List.eq_replicate_iff]
      exact ⟨rfl, fun b hb => by simpa using List.all_eq_true.mp (List.all_takeWhile (p := (· == 32)) (l := s.reverse)) b hb⟩
    have h3 := congrArg List.reverse h1
    rw [List.reverse_append, List.reverse_reverse] at h3
    conv_lhs => rw [← h3]
    unfold trim
    congr 1
    conv_lhs => rw [h2]
    simp
  · unfold trim
    rw [List.getLast?_reverse]
    intro h
    have := List.head?_dropWhile_not (· == 32) s.reverse
    rw [h] at this
    simp at this

/-- C146.  So blanks behind a name or a value make no difference. -/
theorem C146_blanks (t : List Entry) (name value : List Nat) (j k jn jv : Nat) :
    set t (name ++ List.replicate j 32) (value ++ List.replicate k 32) jn jv = set t name value jn jv ∧
    get t (name ++ List.replicate j 32) k = get t name k := by
  have h : ∀ (s : List Nat) (m : Nat), trim (s ++ List.replicate m 32) = trim s := by
    intro s m
    unfold trim
    rw [List.reverse_append, List.reverse_replicate, List.dropWhile_append_of_pos]
    intro c hc
    simp [List.eq_of_mem_replicate hc]
  constructor
  · unfold set; rw [h, h]
  · unfold get; rw [h]

example : set [] [65, 32, 32] [66, 32] 0 0 = some [⟨[65], 0, [66], 0⟩] := by decide

end Verif.ApplVar
