import Verif.CCard
import Mathlib.Tactic

/-! # C118: arguments given by keys (`c_ccard`) -/

namespace Verif.CCard

/-- The name under which a key given as `cle` is called. -/
def shown (cle : Str) : Str :=
  (if cle.getLast? = some '.' ∨ cle.getLast? = some '_' then cle.dropLast else cle).map Char.toUpper

/-- What becomes of the value of a key given as `cle`. -/
def conv (cle v : Str) : Str :=
  if cle.getLast? = some '.' then v
  else if cle.getLast? = some '_' then v.map Char.toLower
  else v.map Char.toUpper

/-- The `t`-th of `vs` goes to place `i + t`. -/
def assign (env : Nat → Str) (i : Nat) (vs : List Str) : Nat → Str :=
  fun j => if i ≤ j then (vs[j - i]?).getD (env j) else env j

/-- One key on the command line: the name as typed, the values attached by `=`, and the values in the
following arguments, each with or without a leading `=`. -/
structure Cmd where
  name : Str
  att : Option (List Str)
  more : List (Bool × List Str)

/-- Values with colons between. -/
def join : List Str → Str
  | [] => []
  | [v] => v
  | v :: vs => v ++ ':' :: join vs

/-- The arguments for one key. -/
def Cmd.render (c : Cmd) : List Str :=
  ('-' :: c.name ++ (match c.att with | none => [] | some vs => '=' :: join vs)) ::
    c.more.map fun g => (if g.1 then ['='] else []) ++ join g.2

/-- All values for one key, in order. -/
def Cmd.vals (c : Cmd) : List Str := c.att.getD [] ++ c.more.flatMap (·.2)

/-- A value that can be written. -/
def Plain (v : Str) : Prop := ':' ∉ v ∧ v.head? ≠ some '=' ∧ v.length < 256

/-- A key of the command line is the `i`-th key, and its values fit in the keys given the same name. -/
structure Fits (keys : List (Str × Str × Str)) (c : Cmd) (i : Nat) : Prop where
  short : c.name.length < 256
  noEq : '=' ∉ c.name
  noDash : c.name.head? ≠ some '-'
  isKey : ∃ k, keys[i]? = some k ∧ shown k.1 = c.name.map Char.toUpper
  first : ∀ j < i, ∀ k, keys[j]? = some k → shown k.1 ≠ c.name.map Char.toUpper
  plain : ∀ v ∈ c.vals, Plain v
  att : c.att ≠ some []
  more : ∀ g ∈ c.more, g.2 ≠ []
  minus : ∀ g ∈ c.more, g.1 = false → (join g.2).head? ≠ some '-'
  room : ∀ t < c.vals.length, ∃ k, keys[i + t]? = some k ∧ (keys[i]?).map (·.1) = some k.1

/-- What one key of the command line does. -/
def Cmd.effect (keys : List (Str × Str × Str)) (env : Nat → Str) (ci : Cmd × Nat) : Nat → Str :=
  if ci.1.vals = [] then assign env ci.2 [((keys[ci.2]?).map (·.2.1)).getD []]
  else assign env ci.2 ci.1.vals

/-! ## Names -/

theorem toUpper_eq (c d : Char) (hd : d = '.' ∨ d = '_') : Char.toUpper c = d ↔ c = d := by
  unfold Char.toUpper
  split_ifs with h
  · constructor
    · intro hc
      exfalso
      have := congrArg (fun x : Char => x.val.toNat) hc
      obtain ⟨h1, h2⟩ := h
      rw [UInt32.le_iff_toNat_le] at h1 h2
      have e : (c.val + ('A'.val - 'a'.val)).toNat = c.val.toNat - 32 := by
        rw [UInt32.toNat_add]
        have : ('A'.val - 'a'.val).toNat = 4294967264 := by decide
        rw [this]
        have a1 : 'a'.val.toNat = 97 := by decide
        have a2 : 'z'.val.toNat = 122 := by decide
        omega
      dsimp only at this
      rw [e] at this
      have a1 : 'a'.val.toNat = 97 := by decide
      have a2 : 'z'.val.toNat = 122 := by decide
      rcases hd with rfl | rfl
      · have : '.'.val.toNat = 46 := by decide
        omega
      · have : '_'.val.toNat = 95 := by decide
        omega
    · rintro rfl
      exfalso
      rcases hd with rfl | rfl <;> revert h <;> decide
  · exact Iff.rfl

theorem mkName_eq (cle : Str) (h : cle ≠ []) :
    ∃ t, mkName cle = some (shown cle, t) ∧ ∀ v, traduire t v = conv cle v := by
  obtain ⟨init, x, rfl⟩ : ∃ a b, cle = a ++ [b] := ⟨cle.dropLast, cle.getLast h, (List.dropLast_append_getLast h).symm⟩
  simp only [mkName, upper, shown, conv, List.map_append, List.map_cons, List.map_nil,
    List.getLast?_append, List.getLast?_singleton, Option.some_or, List.dropLast_concat, Option.some.injEq]
  by_cases h1 : x = '.'
  · subst h1
    exact ⟨.pareil, by simp [Char.toUpper], fun v => by simp [traduire]⟩
  · by_cases h2 : x = '_'
    · subst h2
      exact ⟨.minus, by simp [Char.toUpper], fun v => by simp [traduire]⟩
    · have u1 : Char.toUpper x ≠ '.' := fun h => h1 ((toUpper_eq x '.' (Or.inl rfl)).1 h)
      have u2 : Char.toUpper x ≠ '_' := fun h => h2 ((toUpper_eq x '_' (Or.inr rfl)).1 h)
      refine ⟨.majus, ?_, fun v => by simp [traduire, h1, h2]⟩
      split
      · simp_all
      · simp_all
      · simp_all
      · simp [h1, h2]

theorem mkName_nil : mkName [] = none := rfl

/-- What the table of keys holds. -/
theorem mkKeys_spec (keys : List (Str × Str × Str)) (ks : List Key) (h : keys.mapM mkKey = some ks) :
    ks.length = keys.length ∧ ∀ (i : Nat) (k : Key), ks[i]? = some k → ∃ k0, keys[i]? = some k0 ∧ k.cle = k0.1 ∧
      k.name = shown k0.1 ∧ k.dflt = k0.2.1 ∧ k.val = k0.2.2 ∧ ∀ v, traduire k.typ v = conv k0.1 v := by
  induction keys generalizing ks with
  | nil =>
    simp at h
    subst h
    simp
  | cons k0 keys ih =>
    rw [List.mapM_cons] at h
    simp only [Option.bind_eq_bind, Option.bind_eq_some_iff, Option.pure_def, Option.some.injEq] at h
    obtain ⟨k1, h1, ks1, h2, rfl⟩ := h
    obtain ⟨l1, l2⟩ := ih ks1 h2
    refine ⟨by simp [l1], ?_⟩
    intro i k hk
    cases i with
    | zero =>
      simp at hk
      subst hk
      have hne : k0.1 ≠ [] := by
        intro e
        simp [mkKey, e, mkName_nil] at h1
      obtain ⟨t, e1, e2⟩ := mkName_eq k0.1 hne
      simp only [mkKey, e1, Option.map_some, Option.some.injEq] at h1
      subst h1
      exact ⟨k0, by simp, rfl, rfl, rfl, rfl, e2⟩
    | succ i =>
      simp at hk
      simpa using l2 i k hk

theorem mkKeys_ok (keys : List (Str × Str × Str)) (h : ∀ k ∈ keys, k.1 ≠ []) :
    ∃ ks, keys.mapM mkKey = some ks := by
  induction keys with
  | nil => exact ⟨[], rfl⟩
  | cons k keys ih =>
    obtain ⟨ks, hks⟩ := ih fun k hk => h k (by simp [hk])
    obtain ⟨t, e, -⟩ := mkName_eq k.1 (h k (by simp))
    refine ⟨⟨k.1, shown k.1, t, k.2.1, k.2.2⟩ :: ks, ?_⟩
    rw [List.mapM_cons, hks]
    simp [mkKey, e]

/-! ## Values -/

theorem table_set (n : Nat) (env : Nat → Str) (i : Nat) (v : Str) :
    ((List.range n).map env).set i v = (List.range n).map (assign env i [v]) := by
  apply List.ext_getElem
  · simp
  · intro j h1 h2
    simp only [List.getElem_set, List.getElem_map, List.getElem_range, assign]
    by_cases h : i = j
    · subst h
      simp
    · simp only [h, if_false]
      split_ifs with h'
      · rw [List.getElem?_eq_none (by simp; omega)]
        rfl
      · rfl

theorem assign_cons (env : Nat → Str) (i : Nat) (v : Str) (vs : List Str) :
    assign (assign env i [v]) (i + 1) vs = assign env i (v :: vs) := by
  funext j
  simp only [assign]
  by_cases h : i + 1 ≤ j
  · rw [if_pos h, if_pos (by omega), if_pos (by omega)]
    obtain ⟨d, rfl⟩ : ∃ d, j = i + 1 + d := ⟨j - (i + 1), by omega⟩
    rw [show i + 1 + d - i = d + 1 by omega, show i + 1 + d - (i + 1) = d by omega]
    simp
  · rw [if_neg h]
    by_cases h' : i ≤ j
    · obtain rfl : j = i := by omega
      simp
    · simp [h']

theorem assign_append (env : Nat → Str) (i : Nat) (vs ws : List Str) :
    assign (assign env i vs) (i + vs.length) ws = assign env i (vs ++ ws) := by
  induction vs generalizing env i with
  | nil =>
    congr 1
    funext j
    simp [assign]
  | cons v vs ih =>
    rw [← assign_cons, List.length_cons, show i + (vs.length + 1) = i + 1 + vs.length by omega, ih,
      assign_cons]
    rfl

theorem values_ok (ks : List Key) (name : Str) (n : Nat) (ps : List Str) (i : Nat) (env : Nat → Str)
    (h : ∀ t < ps.length, ∃ k, ks[i + t]? = some k ∧ k.name = name)
    (hl : ∀ p ∈ ps, (strip p).length ≤ 256) :
    values ks name ps i ((List.range n).map env) =
      .ok ((List.range n).map (assign env i (ps.map strip)), i + ps.length) := by
  induction ps generalizing i env with
  | nil =>
    simp only [values, List.map_nil, List.length_nil, Nat.add_zero]
    congr 3
    funext j
    simp [assign]
  | cons p ps ih =>
    obtain ⟨k, hk, hn⟩ := h 0 (by simp)
    simp only [Nat.add_zero] at hk
    simp only [values, hk, hn, if_true, put, if_pos (hl p (by simp)), table_set]
    have := ih (i + 1) (assign env i [strip p])
      (fun t ht => by
        have := h (t + 1) (by simp; omega)
        rwa [show i + (t + 1) = i + 1 + t by omega] at this)
      (fun q hq => hl q (by simp [hq]))
    simp only [bind, Except.bind]
    rw [this, assign_cons]
    simp only [List.map_cons, List.length_cons]
    rw [show i + 1 + ps.length = i + (ps.length + 1) by omega]

theorem pieces_plain (v : Str) (h : ':' ∉ v) : pieces v = [v] := by
  induction v with
  | nil => rfl
  | cons c t ih =>
    simp only [List.mem_cons, not_or] at h
    simp only [pieces, if_neg (Ne.symm h.1), ih h.2]

theorem pieces_colon (v w : Str) (h : ':' ∉ v) : pieces (v ++ ':' :: w) = v :: pieces w := by
  induction v with
  | nil => simp [pieces]
  | cons c t ih =>
    simp only [List.mem_cons, not_or] at h
    simp only [List.cons_append, pieces, if_neg (Ne.symm h.1), ih h.2]

theorem pieces_join (vs : List Str) (hne : vs ≠ []) (h : ∀ v ∈ vs, ':' ∉ v) : pieces (join vs) = vs := by
  induction vs with
  | nil => exact absurd rfl hne
  | cons v vs ih =>
    cases vs with
    | nil => exact pieces_plain v (h v (by simp))
    | cons w ws =>
      rw [join, pieces_colon v _ (h v (by simp)), ih (by simp) (fun x hx => h x (by simp [hx]))]
      simp

theorem strip_plain (v : Str) (h : v.head? ≠ some '=') : strip v = v := by
  cases v with
  | nil => rfl
  | cons c t =>
    unfold strip
    split
    · simp_all
    · rfl

theorem pieces_cons (c : Char) (s : Str) (h : c ≠ ':') :
    ∃ p ps, pieces s = p :: ps ∧ pieces (c :: s) = (c :: p) :: ps := by
  have hne : pieces s ≠ [] := by
    cases s with
    | nil => simp [pieces]
    | cons d t =>
      simp only [pieces]
      split_ifs
      · simp
      · split <;> simp
  obtain ⟨p, ps, e⟩ := List.exists_cons_of_ne_nil hne
  exact ⟨p, ps, e, by simp only [pieces, if_neg h, e]⟩

/-- The values written in one argument. -/
theorem group_pieces (e : Bool) (vs : List Str) (hne : vs ≠ []) (h : ∀ v ∈ vs, Plain v) :
    (pieces ((if e then ['='] else []) ++ join vs)).map strip = vs ∧
      (pieces ((if e then ['='] else []) ++ join vs)).length = vs.length := by
  have hp := pieces_join vs hne fun v hv => (h v hv).1
  have hs : vs.map strip = vs := by
    conv_rhs => rw [← List.map_id vs]
    exact List.map_congr_left fun v hv => strip_plain v (h v hv).2.1
  cases e with
  | false => simp [hp, hs]
  | true =>
    obtain ⟨p, ps, e1, e2⟩ := pieces_cons '=' (join vs) (by decide)
    rw [hp] at e1
    subst e1
    simp only [if_true, List.singleton_append, e2]
    simp only [List.map_cons, List.cons.injEq] at hs ⊢
    exact ⟨⟨rfl, hs.2⟩, by simp⟩

/-! ## Keys on the command line -/

theorem cut_none (nm : Str) (h : '=' ∉ nm) : cut nm = (nm, none) := by
  induction nm with
  | nil => rfl
  | cons c t ih =>
    simp only [List.mem_cons, not_or] at h
    simp only [cut, if_neg (Ne.symm h.1), ih h.2]

theorem cut_some (nm w : Str) (h : '=' ∉ nm) : cut (nm ++ '=' :: w) = (nm, some w) := by
  induction nm with
  | nil => simp [cut]
  | cons c t ih =>
    simp only [List.mem_cons, not_or] at h
    simp only [List.cons_append, cut, if_neg (Ne.symm h.1), ih h.2]

theorem args_key (ks : List Key) (pl : Bool) (pm : Option Nat) (t : Str) (rest : List Str) (s : St)
    (h : t.head? ≠ some '-') :
    args ks pl pm (('-' :: t) :: rest) s = (oneKey ks pl t s).bind (args ks pl pm rest) := by
  rw [args]
  · rfl
  · rintro u rfl
    simp at h

theorem args_value (ks : List Key) (pl : Bool) (pm : Option Nat) (a : Str) (rest : List Str) (s : St)
    (h : a.head? ≠ some '-') :
    args ks pl pm (a :: rest) s = (oneValue ks pl a s).bind (args ks pl pm rest) := by
  rw [args]
  · rfl
  · rintro u hu
    subst hu
    simp at h
  · rintro u hu
    subst hu
    simp at h

theorem find_first (keys : List (Str × Str × Str)) (ks : List Key) (hks : keys.mapM mkKey = some ks)
    (nm : Str) (i : Nat) (k0 : Str × Str × Str) (hk : keys[i]? = some k0)
    (hn : shown k0.1 = nm.map Char.toUpper)
    (hf : ∀ j < i, ∀ k, keys[j]? = some k → shown k.1 ≠ nm.map Char.toUpper) : find ks nm = some i := by
  obtain ⟨hl, hsp⟩ := mkKeys_spec keys ks hks
  have hi : i < ks.length := by
    rw [hl]
    exact (List.getElem?_eq_some_iff.1 hk).1
  rw [find, List.findIdx?_eq_some_iff_getElem]
  refine ⟨hi, ?_, ?_⟩
  · obtain ⟨k0', h1, h2, h3, -⟩ := hsp i ks[i] (List.getElem?_eq_getElem hi)
    rw [hk] at h1
    cases h1
    simp [h3, hn, upper]
  · intro j hj
    obtain ⟨k0', h1, h2, h3, -⟩ := hsp j ks[j] (List.getElem?_eq_getElem (by omega))
    have := hf j hj k0' h1
    simp [h3, upper, this]

theorem find_none (keys : List (Str × Str × Str)) (ks : List Key) (hks : keys.mapM mkKey = some ks)
    (nm : Str) (hf : ∀ k ∈ keys, shown k.1 ≠ nm.map Char.toUpper) : find ks nm = none := by
  obtain ⟨hl, hsp⟩ := mkKeys_spec keys ks hks
  rw [find, List.findIdx?_eq_none_iff]
  intro k hk
  obtain ⟨j, hj, rfl⟩ := List.getElem_of_mem hk
  obtain ⟨k0', h1, h2, h3, -⟩ := hsp j ks[j] (List.getElem?_eq_getElem hj)
  have := hf k0' (List.mem_of_getElem? h1)
  simp [h3, upper, this]

/-- The keys from `i` on that were given the same name as key `i`. -/
theorem room_keys (keys : List (Str × Str × Str)) (ks : List Key) (hks : keys.mapM mkKey = some ks)
    (i m : Nat) (ki : Key) (hki : ks[i]? = some ki)
    (h : ∀ t < m, ∃ k, keys[i + t]? = some k ∧ (keys[i]?).map (·.1) = some k.1) :
    ∀ t < m, ∃ k, ks[i + t]? = some k ∧ k.cle = ki.cle ∧ k.name = ki.name := by
  obtain ⟨hl, hsp⟩ := mkKeys_spec keys ks hks
  intro t ht
  obtain ⟨k0, h1, h2⟩ := h t ht
  have hi : i + t < ks.length := by
    rw [hl]
    exact (List.getElem?_eq_some_iff.1 h1).1
  obtain ⟨a, a1, a2, a3, -⟩ := hsp (i + t) ks[i + t] (List.getElem?_eq_getElem hi)
  obtain ⟨b, b1, b2, b3, -⟩ := hsp i ki hki
  rw [h1] at a1
  cases a1
  rw [b1] at h2
  simp only [Option.map_some, Option.some.injEq] at h2
  exact ⟨ks[i + t], List.getElem?_eq_getElem hi, by rw [a2, b2, h2], by rw [a3, b3, h2]⟩

theorem more_ok (ks : List Key) (pl : Bool) (pm : Option Nat) (n : Nat) (i : Nat) (ki : Key)
    (hki : ks[i]? = some ki) (gs : List (Bool × List Str)) (rest : List Str) :
    ∀ (d : Nat) (env : Nat → Str) (s : St), s.fin = (List.range n).map env → s.pos = some i →
    s.posc = some (i + d) → (∀ g ∈ gs, g.2 ≠ []) → (∀ g ∈ gs, ∀ v ∈ g.2, Plain v) →
    (∀ g ∈ gs, g.1 = false → (join g.2).head? ≠ some '-') →
    (∀ t < d + (gs.flatMap (·.2)).length, ∃ k, ks[i + t]? = some k ∧ k.cle = ki.cle ∧ k.name = ki.name) →
    args ks pl pm ((gs.map fun g => (if g.1 then ['='] else []) ++ join g.2) ++ rest) s =
      args ks pl pm rest { s with
        fin := (List.range n).map (assign env (i + d) (gs.flatMap (·.2))),
        posc := some (i + d + (gs.flatMap (·.2)).length) } := by
  induction gs with
  | nil =>
    intro d env s hf hp hc _ _ _ _
    have : assign env (i + d) [] = env := by
      funext j
      simp [assign]
    simp only [List.map_nil, List.nil_append, List.flatMap_nil, List.length_nil, this, Nat.add_zero]
    rw [← hf, ← hc]
  | cons g gs ih =>
    intro d env s hf hp hc h1 h2 h3 h4
    simp only [List.map_cons, List.cons_append, List.flatMap_cons, List.length_append] at h4 ⊢
    have hne := h1 g (by simp)
    have hpos : 0 < g.2.length := List.length_pos_iff.2 hne
    obtain ⟨p1, p2⟩ := group_pieces g.1 g.2 hne (h2 g (by simp))
    rw [args_value]
    · have hv := values_ok ks ki.name n (pieces ((if g.1 then ['='] else []) ++ join g.2)) (i + d) env
        (fun t ht => by
          obtain ⟨k, e1, e2, e3⟩ := h4 (d + t) (by omega)
          exact ⟨k, by rw [← e1]; congr 1; omega, e3⟩)
        (fun p hp => by
          have : strip p ∈ g.2 := by
            rw [← p1]
            exact List.mem_map_of_mem hp
          have := (h2 g (by simp) _ this).2.2
          omega)
      obtain ⟨k, e1, e2, e3⟩ := h4 d (by omega)
      have ho : oneValue ks pl ((if g.1 then ['='] else []) ++ join g.2) s =
          .ok { s with fin := (List.range n).map (assign env (i + d) g.2), posc := some (i + d + g.2.length) } := by
        simp only [oneValue, hc, e1, hp, Option.bind_some, hki, e2, if_true, hf, hv, p1, p2]
        rfl
      rw [ho]
      simp only [Except.bind]
      rw [ih (d + g.2.length) (assign env (i + d) g.2) { s with fin := (List.range n).map (assign env (i + d) g.2), posc := some (i + d + g.2.length) } rfl hp
        (by simp only [Option.some.injEq]; omega)
        (fun g' hg => h1 g' (by simp [hg])) (fun g' hg => h2 g' (by simp [hg]))
        (fun g' hg => h3 g' (by simp [hg]))
        (fun t ht => h4 t (by omega))]
      simp only
      rw [show i + (d + g.2.length) = i + d + g.2.length by omega, assign_append, Nat.add_assoc (i + d)]
    · cases hg : g.1 with
      | true => simp
      | false => simpa [hg] using h3 g (by simp) hg

theorem assign_over (env : Nat → Str) (i : Nat) (d v : Str) (vs : List Str) :
    assign (assign env i [d]) i (v :: vs) = assign env i (v :: vs) := by
  funext j
  simp only [assign]
  split_ifs with h
  · by_cases hj : j = i
    · subst hj
      simp
    · obtain ⟨x, hx⟩ : ∃ x, j - i = x + 1 := ⟨j - i - 1, by omega⟩
      simp [hx]
  · rfl

theorem cmd_ok (keys : List (Str × Str × Str)) (ks : List Key) (hks : keys.mapM mkKey = some ks)
    (hd : ∀ k ∈ keys, k.2.1.length < 256)
    (pl : Bool) (pm : Option Nat) (n : Nat) (c : Cmd) (i : Nat) (hc : Fits keys c i) (rest : List Str)
    (env : Nat → Str) (s : St) (hf : s.fin = (List.range n).map env) :
    ∃ p pc, args ks pl pm (c.render ++ rest) s =
      args ks pl pm rest { s with fin := (List.range n).map (Cmd.effect keys env (c, i)), pos := p, posc := pc } := by
  obtain ⟨k0, hk0, hn0⟩ := hc.isKey
  have hfind := find_first keys ks hks c.name i k0 hk0 hn0 hc.first
  obtain ⟨hl, hsp⟩ := mkKeys_spec keys ks hks
  have hi : i < ks.length := by
    rw [hl]
    exact (List.getElem?_eq_some_iff.1 hk0).1
  have hki : ks[i]? = some ks[i] := List.getElem?_eq_getElem hi
  obtain ⟨k0', b1, b2, b3, b4, -⟩ := hsp i ks[i] hki
  rw [hk0] at b1
  cases b1
  generalize ks[i] = ki at *
  have hroom := room_keys keys ks hks i _ ki hki hc.room
  have hshort := hc.short
  cases ha : c.att with
  | none =>
    have hvals : c.vals = c.more.flatMap (·.2) := by simp [Cmd.vals, ha]
    rw [hvals] at hroom
    have hdl : ki.dflt.length ≤ 256 := by
      have := hd k0 (List.mem_of_getElem? hk0)
      rw [b4]
      omega
    have ho : oneKey ks pl c.name s =
        .ok { s with fin := (List.range n).map (assign env i [ki.dflt]), pos := some i, posc := some i } := by
      simp only [oneKey, cut_none c.name hc.noEq, if_neg (by omega : ¬ 256 ≤ c.name.length), hfind, hki, put,
        if_pos hdl, hf, table_set]
      rfl
    refine ⟨some i, some (i + (c.more.flatMap (·.2)).length), ?_⟩
    simp only [Cmd.render, ha, List.append_nil, List.cons_append]
    rw [args_key _ _ _ _ _ _ hc.noDash, ho]
    simp only [Except.bind]
    rw [more_ok ks pl pm n i ki hki c.more rest 0 (assign env i [ki.dflt]) _ rfl rfl rfl hc.more
      (fun g hg v hv => hc.plain v (by rw [hvals]; exact List.mem_flatMap.2 ⟨g, hg, hv⟩)) hc.minus
      (fun t ht => hroom t (by omega))]
    congr 2
    simp only [Nat.add_zero, Cmd.effect, hvals, hk0, Option.map_some, Option.getD_some, b4]
    split_ifs with h0
    · rw [h0]
      congr 1
      funext j
      simp [assign]
    · obtain ⟨v, vs, hv⟩ := List.exists_cons_of_ne_nil h0
      rw [hv, assign_over]
  | some vs =>
    have hvals : c.vals = vs ++ c.more.flatMap (·.2) := by simp [Cmd.vals, ha]
    have hne : vs ≠ [] := fun h => hc.att (by rw [ha, h])
    have hpos : 0 < vs.length := List.length_pos_iff.2 hne
    rw [hvals, List.length_append] at hroom
    have hpl : ∀ v ∈ vs, Plain v := fun v hv => hc.plain v (by rw [hvals]; simp [hv])
    obtain ⟨p1, p2⟩ := group_pieces false vs hne hpl
    simp only [Bool.false_eq_true, if_false, List.nil_append] at p1 p2
    have hv := values_ok ks ki.name n (pieces (join vs)) i env
      (fun t ht => by
        obtain ⟨k, e1, e2, e3⟩ := hroom t (by omega)
        exact ⟨k, e1, e3⟩)
      (fun p hp => by
        have : strip p ∈ vs := by
          rw [← p1]
          exact List.mem_map_of_mem hp
        have := (hpl _ this).2.2
        omega)
    have ho : oneKey ks pl (c.name ++ '=' :: join vs) s =
        .ok { s with fin := (List.range n).map (assign env i vs), pos := some i, posc := some (i + vs.length) } := by
      simp only [oneKey, cut_some c.name _ hc.noEq, if_neg (by omega : ¬ 256 ≤ c.name.length), hfind, hki, hf,
        hv, p1, p2]
      rfl
    refine ⟨some i, some (i + vs.length + (c.more.flatMap (·.2)).length), ?_⟩
    simp only [Cmd.render, ha, List.cons_append]
    rw [args_key, ho]
    · simp only [Except.bind]
      rw [more_ok ks pl pm n i ki hki c.more rest vs.length (assign env i vs) _ rfl rfl rfl hc.more
        (fun g hg v hv => hc.plain v (by rw [hvals]; exact List.mem_append_right _ (List.mem_flatMap.2 ⟨g, hg, hv⟩)))
        hc.minus hroom]
      congr 2
      rw [assign_append, Cmd.effect, hvals, if_neg (by simp [hne])]
    · have := hc.noDash
      cases hnm : c.name with
      | nil => simp
      | cons x y => simpa [hnm] using this

theorem cmds_ok (keys : List (Str × Str × Str)) (ks : List Key) (hks : keys.mapM mkKey = some ks)
    (hd : ∀ k ∈ keys, k.2.1.length < 256)
    (pl : Bool) (pm : Option Nat) (n : Nat) (cs : List (Cmd × Nat)) (hc : ∀ c ∈ cs, Fits keys c.1 c.2)
    (rest : List Str) (env : Nat → Str) (s : St) (hf : s.fin = (List.range n).map env) :
    ∃ p pc, args ks pl pm (cs.flatMap (·.1.render) ++ rest) s =
      args ks pl pm rest { s with
        fin := (List.range n).map (cs.foldl (Cmd.effect keys) env), pos := p, posc := pc } := by
  induction cs generalizing env s with
  | nil => exact ⟨s.pos, s.posc, by simp [← hf]⟩
  | cons c cs ih =>
    obtain ⟨p, pc, h⟩ := cmd_ok keys ks hks hd pl pm n c.1 c.2 (hc c (by simp)) (cs.flatMap (·.1.render) ++ rest) env s hf
    obtain ⟨p', pc', h'⟩ := ih (fun c' h' => hc c' (by simp [h'])) (Cmd.effect keys env c)
      { s with fin := (List.range n).map (Cmd.effect keys env c), pos := p, posc := pc } rfl
    refine ⟨p', pc', ?_⟩
    rw [List.flatMap_cons, List.append_assoc, h, h', List.foldl_cons]

theorem positionel_ok (ks : List Key) (m : Nat) (km : Key) (hm : ks[m]? = some km) (b : Bool) (n : Nat)
    (rest : List Str) (hrest : rest = [] ∨ b = true ∧ ∃ t r, rest = ('-' :: t) :: r) (ps : List Str) :
    ∀ (env : Nat → Str) (s : St), s.fin = (List.range n).map env →
    (∀ p ∈ ps, b = true → p.head? ≠ some '-') → (∀ p ∈ ps, p.length < 256) →
    (∀ t < ps.length, ∃ k, ks[s.sposc + t]? = some k ∧ k.name = km.name) →
    positionel ks (some m) b (ps ++ rest) s = .ok (rest, { s with
      fin := (List.range n).map (assign env s.sposc ps), sposc := s.sposc + ps.length,
      npos := s.npos + ps.length }) := by
  induction ps with
  | nil =>
    intro env s hf _ _ _
    have ha : assign env s.sposc [] = env := by
      funext j
      simp [assign]
    simp only [List.nil_append, ha, List.length_nil, Nat.add_zero, Int.ofNat_zero, Int.add_zero]
    rw [← hf]
    rcases hrest with rfl | ⟨rfl, t, r, rfl⟩
    · simp [positionel]
    · simp [positionel]
  | cons p ps ih =>
    intro env s hf h1 h2 h3
    obtain ⟨k, e1, e2⟩ := h3 0 (by simp)
    simp only [Nat.add_zero] at e1
    have hh : ¬ (b = true ∧ p.head? = some '-') := fun h => h1 p (by simp) h.1 h.2
    have hl : p.length ≤ 256 := by
      have := h2 p (by simp)
      omega
    simp only [List.cons_append, positionel, if_neg hh, e1, Option.bind_some, hm, e2, if_true, put, if_pos hl, hf,
      table_set]
    simp only [bind, Except.bind]
    rw [ih (assign env s.sposc [p]) _ rfl (fun q hq => h1 q (by simp [hq])) (fun q hq => h2 q (by simp [hq]))
      (fun t ht => by
        have := h3 (t + 1) (by simp; omega)
        rwa [show s.sposc + (t + 1) = s.sposc + 1 + t by omega] at this)]
    simp only [assign_cons, List.length_cons, Nat.cast_add, Nat.cast_one]
    rw [show s.sposc + 1 + ps.length = s.sposc + (ps.length + 1) by omega,
      show s.npos + 1 + (ps.length : Int) = s.npos + ((ps.length : Int) + 1) by omega]

theorem mapM_ok {α β : Type} (f : α → Except Stop β) (g : α → β) (l : List α) (h : ∀ x ∈ l, f x = .ok (g x)) :
    l.mapM f = .ok (l.map g) := by
  induction l with
  | nil => rfl
  | cons x l ih =>
    rw [List.mapM_cons, h x (by simp), ih fun y hy => h y (by simp [hy])]
    rfl

theorem conv_length (cle v : Str) : (conv cle v).length = v.length := by
  unfold conv
  split_ifs <;> simp

theorem finish_ok (keys : List (Str × Str × Str)) (ks : List Key) (hks : keys.mapM mkKey = some ks)
    (env : Nat → Str) (he : ∀ j < keys.length, (env j).length < 256) :
    finish ks ((List.range keys.length).map env) = .ok (keys.mapIdx fun j k => conv k.1 (env j)) := by
  obtain ⟨hl, hsp⟩ := mkKeys_spec keys ks hks
  rw [finish, mapM_ok _ (fun p => traduire p.1.typ p.2)]
  · congr 1
    apply List.ext_getElem
    · simp [hl]
    · intro j h1 h2
      simp only [List.getElem_map, List.getElem_zip, List.getElem_range, List.getElem_mapIdx]
      obtain ⟨k0, a1, -, -, -, -, a2⟩ := hsp j _ (List.getElem?_eq_getElem (by simpa [hl] using h2))
      rw [a2]
      rw [List.getElem?_eq_getElem (by simpa using h2)] at a1
      cases a1
      rfl
  · intro x hx
    obtain ⟨j, hj, rfl⟩ := List.getElem_of_mem hx
    simp only [List.length_zip, List.length_map, List.length_range] at hj
    simp only [List.getElem_zip, List.getElem_map, List.getElem_range]
    obtain ⟨k0, a1, -, -, -, -, a2⟩ := hsp j _ (List.getElem?_eq_getElem (by omega))
    rw [a2, if_pos (by rw [conv_length]; exact he j (by omega))]

theorem assign_short (env : Nat → Str) (i : Nat) (vs : List Str) (n : Nat) (h : ∀ j < n, (env j).length < 256)
    (hv : ∀ v ∈ vs, v.length < 256) : ∀ j < n, (assign env i vs j).length < 256 := by
  intro j hj
  simp only [assign]
  split_ifs
  · cases e : vs[j - i]? with
    | none => simpa using h j hj
    | some v => simpa using hv v (List.mem_of_getElem? e)
  · exact h j hj

theorem effect_short (keys : List (Str × Str × Str)) (hd : ∀ k ∈ keys, k.2.1.length < 256) (n : Nat)
    (cs : List (Cmd × Nat)) (hc : ∀ c ∈ cs, Fits keys c.1 c.2) (env : Nat → Str)
    (h : ∀ j < n, (env j).length < 256) : ∀ j < n, (cs.foldl (Cmd.effect keys) env j).length < 256 := by
  induction cs generalizing env with
  | nil => exact h
  | cons c cs ih =>
    rw [List.foldl_cons]
    refine ih (fun c' h' => hc c' (by simp [h'])) _ ?_
    simp only [Cmd.effect]
    split_ifs
    · apply assign_short _ _ _ _ h
      intro v hv
      simp only [List.mem_singleton] at hv
      subst hv
      cases e : keys[c.2]? with
      | none => simp
      | some k => simpa using hd k (List.mem_of_getElem? e)
    · exact assign_short _ _ _ _ h fun v hv => ((hc c (by simp)).plain v hv).2.2

/-- The positional arguments fit in the keys called `-`, the first of which is key `m`. -/
structure Positional (keys : List (Str × Str × Str)) (m count : Nat) : Prop where
  first : ∀ j < m, ∀ k, keys[j]? = some k → shown k.1 ≠ ['-']
  room : ∀ t < max 1 count, ∃ k, keys[m + t]? = some k ∧ shown k.1 = ['-']

/-- **C118** — A command line made of positional arguments, keys with their values, and more positional
arguments after `--`, where the values of every key fit in the keys given the same name, sets exactly what
it says: the values go to the keys in order, however they are attached or separated, a key without value
takes its `def`, later keys win, all others keep their `val`; every value is then converted as the name of
its key asks.  The number of positional arguments is added to what an uninitialised variable held. -/
theorem C118 (junk : Int) (static0 : Nat) (keys : List (Str × Str × Str)) (npos : Int) (m : Nat)
    (ps : List Str) (cs : List (Cmd × Nat)) (dd : Str) (qs : List Str)
    (hn : keys.length ≤ 100) (hname : ∀ k ∈ keys, k.1 ≠ [])
    (hshort : ∀ k ∈ keys, k.2.1.length < 256 ∧ k.2.2.length < 256)
    (hcs : ∀ c ∈ cs, Fits keys c.1 c.2)
    (hpos : Positional keys m (ps.length + qs.length))
    (hps : ∀ p ∈ ps, p.head? ≠ some '-' ∧ p.length < 256) (hqs : ∀ q ∈ qs, q.length < 256) :
    ccard junk static0 keys npos (ps ++ (cs.flatMap (·.1.render) ++ ('-' :: '-' :: dd) :: qs)) =
      .ok (keys.mapIdx fun j k => conv k.1
          (assign (cs.foldl (Cmd.effect keys) (assign (fun j => ((keys[j]?).map (·.2.2)).getD []) m ps))
            (m + ps.length) qs j),
        if 0 < npos then junk + (ps.length + qs.length : Nat) else npos) := by
  obtain ⟨ks, hks⟩ := mkKeys_ok keys hname
  obtain ⟨hl, hsp⟩ := mkKeys_spec keys ks hks
  have hd : ∀ k ∈ keys, k.2.1.length < 256 := fun k hk => (hshort k hk).1
  obtain ⟨k0, hk0, hn0⟩ := hpos.room 0 (by omega)
  have hup : (['-'] : Str).map Char.toUpper = ['-'] := by decide
  have hfind : find ks ['-'] = some m :=
    find_first keys ks hks ['-'] m k0 hk0 (by rw [hup]; exact hn0) (fun j hj k hk => by
      rw [hup]
      exact hpos.first j hj k hk)
  have hroom : ∀ t < max 1 (ps.length + qs.length), ∃ k, ks[m + t]? = some k ∧ k.name = ['-'] := by
    intro t ht
    obtain ⟨k, h1, h2⟩ := hpos.room t ht
    have hi : m + t < ks.length := by
      rw [hl]
      exact (List.getElem?_eq_some_iff.1 h1).1
    obtain ⟨k', a1, -, a2, -⟩ := hsp (m + t) ks[m + t] (List.getElem?_eq_getElem hi)
    rw [h1] at a1
    cases a1
    exact ⟨_, List.getElem?_eq_getElem hi, by rw [a2, h2]⟩
  obtain ⟨km, hkm, hkmn⟩ := hroom 0 (by omega)
  simp only [Nat.add_zero] at hkm
  set env0 : Nat → Str := fun j => ((keys[j]?).map (·.2.2)).getD [] with henv0
  have hfin0 : ks.map (·.val) = (List.range keys.length).map env0 := by
    apply List.ext_getElem
    · simp [hl]
    · intro j h1 h2
      simp only [List.getElem_map, List.getElem_range, henv0]
      obtain ⟨k', a1, -, -, -, a2, -⟩ := hsp j _ (List.getElem?_eq_getElem (by simpa using h1))
      rw [a1, a2]
      rfl
  have hnoth : ¬ ((ps ++ (cs.flatMap (·.1.render) ++ ('-' :: '-' :: dd) :: qs)) = [['-', 'h']] ∨
      (ps ++ (cs.flatMap (·.1.render) ++ ('-' :: '-' :: dd) :: qs)) = [['-', 'H']]) := by
    have : ∀ x : Char, x ≠ '-' → (ps ++ (cs.flatMap (·.1.render) ++ ('-' :: '-' :: dd) :: qs)) ≠ [['-', x]] := by
      intro x hx h
      have hm : ('-' :: '-' :: dd) ∈ [['-', x]] := by
        rw [← h]
        simp
      simp at hm
      exact hx hm.1.symm
    rintro (h | h)
    · exact this 'h' (by decide) h
    · exact this 'H' (by decide) h
  have hstart : ∃ t r, (cs.flatMap (·.1.render) ++ ('-' :: '-' :: dd) :: qs) = ('-' :: t) :: r := by
    cases cs with
    | nil => exact ⟨_, _, rfl⟩
    | cons c cs =>
      obtain ⟨x, r, hr⟩ : ∃ x r, c.1.render = ('-' :: x) :: r := ⟨_, _, rfl⟩
      exact ⟨x, r ++ (cs.flatMap (·.1.render) ++ ('-' :: '-' :: dd) :: qs), by simp [hr]⟩
  have h1 := positionel_ok ks m km hkm true keys.length _ (Or.inr ⟨rfl, hstart⟩) ps env0
    { fin := (List.range keys.length).map env0, npos := junk, sposc := m } rfl
    (fun p hp _ => (hps p hp).1) (fun p hp => (hps p hp).2)
    (fun t ht => by
      obtain ⟨k, e1, e2⟩ := hroom t (by omega)
      exact ⟨k, e1, by rw [e2, hkmn]⟩)
  obtain ⟨p', pc', h2⟩ := cmds_ok keys ks hks hd (decide (npos = -111)) (some m) keys.length cs hcs
    (('-' :: '-' :: dd) :: qs) (assign env0 m ps)
    { fin := (List.range keys.length).map (assign env0 m ps), npos := junk + ps.length, sposc := m + ps.length } rfl
  have h3 := positionel_ok ks m km hkm false keys.length [] (Or.inl rfl) qs
    (cs.foldl (Cmd.effect keys) (assign env0 m ps))
    { fin := (List.range keys.length).map (cs.foldl (Cmd.effect keys) (assign env0 m ps)), pos := p', posc := pc',
      npos := junk + ps.length, sposc := m + ps.length } rfl
    (by simp) hqs
    (fun t ht => by
      obtain ⟨k, e1, e2⟩ := hroom (ps.length + t) (by omega)
      exact ⟨k, by rw [← e1]; congr 1; simp only; omega, by rw [e2, hkmn]⟩)
  rw [List.append_nil] at h3
  have hshort' := assign_short (cs.foldl (Cmd.effect keys) (assign env0 m ps)) (m + ps.length) qs keys.length
    (effect_short keys hd keys.length cs hcs _ (assign_short env0 m ps keys.length (fun j hj => by
      simp only [henv0, List.getElem?_eq_getElem hj, Option.map_some, Option.getD_some]
      exact (hshort _ (List.getElem_mem hj)).2) (fun p hp => (hps p hp).2))) hqs
  have h4 := finish_ok keys ks hks _ hshort'
  simp only [ccard, lead, if_pos hn, hks, if_neg hnoth, hfind, Option.isSome_some, if_true, Option.getD_some, hfin0, h1,
    bind, Except.bind, Nat.lt_irrefl, false_and, if_false, h2, args, h3, pure, Except.pure, h4]
  simp only [Nat.cast_add, add_assoc]

/-- The same when nothing follows the keys: positional arguments, then keys. -/
theorem C118_lead (junk : Int) (static0 : Nat) (keys : List (Str × Str × Str)) (npos : Int) (m : Nat)
    (ps : List Str) (cs : List (Cmd × Nat))
    (hn : keys.length ≤ 100) (hname : ∀ k ∈ keys, k.1 ≠ [])
    (hshort : ∀ k ∈ keys, k.2.1.length < 256 ∧ k.2.2.length < 256)
    (hcs : ∀ c ∈ cs, Fits keys c.1 c.2)
    (hh : ps ++ cs.flatMap (·.1.render) ≠ [['-', 'h']] ∧ ps ++ cs.flatMap (·.1.render) ≠ [['-', 'H']])
    (hpos : Positional keys m ps.length)
    (hps : ∀ p ∈ ps, p.head? ≠ some '-' ∧ p.length < 256) :
    ccard junk static0 keys npos (ps ++ cs.flatMap (·.1.render)) =
      .ok (keys.mapIdx fun j k => conv k.1
          (cs.foldl (Cmd.effect keys) (assign (fun j => ((keys[j]?).map (·.2.2)).getD []) m ps) j),
        if 0 < npos then junk + ps.length else npos) := by
  obtain ⟨ks, hks⟩ := mkKeys_ok keys hname
  obtain ⟨hl, hsp⟩ := mkKeys_spec keys ks hks
  have hd : ∀ k ∈ keys, k.2.1.length < 256 := fun k hk => (hshort k hk).1
  obtain ⟨k0, hk0, hn0⟩ := hpos.room 0 (by omega)
  have hup : (['-'] : Str).map Char.toUpper = ['-'] := by decide
  have hfind : find ks ['-'] = some m :=
    find_first keys ks hks ['-'] m k0 hk0 (by rw [hup]; exact hn0) (fun j hj k hk => by
      rw [hup]
      exact hpos.first j hj k hk)
  have hroom : ∀ t < max 1 ps.length, ∃ k, ks[m + t]? = some k ∧ k.name = ['-'] := by
    intro t ht
    obtain ⟨k, h1, h2⟩ := hpos.room t ht
    have hi : m + t < ks.length := by
      rw [hl]
      exact (List.getElem?_eq_some_iff.1 h1).1
    obtain ⟨k', a1, -, a2, -⟩ := hsp (m + t) ks[m + t] (List.getElem?_eq_getElem hi)
    rw [h1] at a1
    cases a1
    exact ⟨_, List.getElem?_eq_getElem hi, by rw [a2, h2]⟩
  obtain ⟨km, hkm, hkmn⟩ := hroom 0 (by omega)
  simp only [Nat.add_zero] at hkm
  set env0 : Nat → Str := fun j => ((keys[j]?).map (·.2.2)).getD [] with henv0
  have hfin0 : ks.map (·.val) = (List.range keys.length).map env0 := by
    apply List.ext_getElem
    · simp [hl]
    · intro j h1 h2
      simp only [List.getElem_map, List.getElem_range, henv0]
      obtain ⟨k', a1, -, -, -, a2, -⟩ := hsp j _ (List.getElem?_eq_getElem (by simpa using h1))
      rw [a1, a2]
      rfl
  have hnoth : ¬ ((ps ++ cs.flatMap (·.1.render)) = [['-', 'h']] ∨
      (ps ++ cs.flatMap (·.1.render)) = [['-', 'H']]) := fun h => h.elim hh.1 hh.2
  have hstart : cs.flatMap (·.1.render) = [] ∨ true = true ∧ ∃ t r, cs.flatMap (·.1.render) = ('-' :: t) :: r := by
    cases cs with
    | nil => exact Or.inl rfl
    | cons c cs =>
      obtain ⟨x, r, hr⟩ : ∃ x r, c.1.render = ('-' :: x) :: r := ⟨_, _, rfl⟩
      exact Or.inr ⟨rfl, x, r ++ cs.flatMap (·.1.render), by simp [hr]⟩
  have h1 := positionel_ok ks m km hkm true keys.length _ hstart ps env0
    { fin := (List.range keys.length).map env0, npos := junk, sposc := m } rfl
    (fun p hp _ => (hps p hp).1) (fun p hp => (hps p hp).2)
    (fun t ht => by
      obtain ⟨k, e1, e2⟩ := hroom t (by omega)
      exact ⟨k, e1, by rw [e2, hkmn]⟩)
  obtain ⟨p', pc', h2⟩ := cmds_ok keys ks hks hd (decide (npos = -111)) (some m) keys.length cs hcs
    [] (assign env0 m ps)
    { fin := (List.range keys.length).map (assign env0 m ps), npos := junk + ps.length, sposc := m + ps.length } rfl
  rw [List.append_nil] at h2
  have hshort' := effect_short keys hd keys.length cs hcs _ (assign_short env0 m ps keys.length (fun j hj => by
      simp only [henv0, List.getElem?_eq_getElem hj, Option.map_some, Option.getD_some]
      exact (hshort _ (List.getElem_mem hj)).2) (fun p hp => (hps p hp).2))
  have h4 := finish_ok keys ks hks _ hshort'
  simp only [ccard, lead, if_pos hn, hks, if_neg hnoth, hfind, Option.isSome_some, if_true, Option.getD_some, hfin0, h1,
    bind, Except.bind, Nat.lt_irrefl, false_and, if_false, h2, args, pure, Except.pure, h4]

/-- The same without any key called `-`.  The number of positional arguments asked for is then whatever the
uninitialised variable held. -/
theorem C118_keys (junk : Int) (static0 : Nat) (keys : List (Str × Str × Str)) (npos : Int)
    (cs : List (Cmd × Nat))
    (hn : keys.length ≤ 100) (hname : ∀ k ∈ keys, k.1 ≠ [])
    (hshort : ∀ k ∈ keys, k.2.1.length < 256 ∧ k.2.2.length < 256)
    (hcs : ∀ c ∈ cs, Fits keys c.1 c.2)
    (hh : cs.flatMap (·.1.render) ≠ [['-', 'h']] ∧ cs.flatMap (·.1.render) ≠ [['-', 'H']])
    (hpos : ∀ k ∈ keys, shown k.1 ≠ ['-']) :
    ccard junk static0 keys npos (cs.flatMap (·.1.render)) =
      .ok (keys.mapIdx fun j k => conv k.1
          (cs.foldl (Cmd.effect keys) (fun j => ((keys[j]?).map (·.2.2)).getD []) j),
        if 0 < npos then junk else npos) := by
  obtain ⟨ks, hks⟩ := mkKeys_ok keys hname
  obtain ⟨hl, hsp⟩ := mkKeys_spec keys ks hks
  have hd : ∀ k ∈ keys, k.2.1.length < 256 := fun k hk => (hshort k hk).1
  have hup : (['-'] : Str).map Char.toUpper = ['-'] := by decide
  have hfind : find ks ['-'] = none := find_none keys ks hks ['-'] (by rw [hup]; exact hpos)
  set env0 : Nat → Str := fun j => ((keys[j]?).map (·.2.2)).getD [] with henv0
  have hfin0 : ks.map (·.val) = (List.range keys.length).map env0 := by
    apply List.ext_getElem
    · simp [hl]
    · intro j h1 h2
      simp only [List.getElem_map, List.getElem_range, henv0]
      obtain ⟨k', a1, -, -, -, a2, -⟩ := hsp j _ (List.getElem?_eq_getElem (by simpa using h1))
      rw [a1, a2]
      rfl
  have hnoth : ¬ (cs.flatMap (·.1.render) = [['-', 'h']] ∨ cs.flatMap (·.1.render) = [['-', 'H']]) :=
    fun h => h.elim hh.1 hh.2
  obtain ⟨p', pc', h2⟩ := cmds_ok keys ks hks hd (decide (npos = -111)) none keys.length cs hcs
    [] env0 { fin := (List.range keys.length).map env0, npos := junk, sposc := static0 } rfl
  rw [List.append_nil] at h2
  have hshort' := effect_short keys hd keys.length cs hcs env0 (fun j hj => by
      simp only [henv0, List.getElem?_eq_getElem hj, Option.map_some, Option.getD_some]
      exact (hshort _ (List.getElem_mem hj)).2)
  have h4 := finish_ok keys ks hks _ hshort'
  simp only [ccard, lead, if_pos hn, hks, if_neg hnoth, hfind, Option.isSome_none, Bool.false_eq_true, if_false,
    Option.getD_none, hfin0, bind, Except.bind, Nat.lt_irrefl, false_and, h2, args, pure, Except.pure, h4]

/-! ## Keys that are not on the command line -/

theorem put_keep (fin fin' : List Str) (i j : Nat) (v : Str) (h : put fin i v = .ok fin') (hij : i ≠ j) :
    fin'[j]? = fin[j]? := by
  unfold put at h
  split_ifs at h
  cases h
  simp [List.getElem?_set_ne hij]

theorem values_keep (ks : List Key) (name : Str) (j : Nat) (kj : Key) (hj : ks[j]? = some kj)
    (hne : kj.name ≠ name) (ps : List Str) :
    ∀ (pc : Nat) (fin : List Str) (r : List Str × Nat), values ks name ps pc fin = .ok r → r.1[j]? = fin[j]? := by
  induction ps with
  | nil =>
    intro pc fin r h
    simp only [values, Except.ok.injEq] at h
    subst h
    rfl
  | cons p ps ih =>
    intro pc fin r h
    simp only [values] at h
    cases hk : ks[pc]? with
    | none => simp [hk] at h
    | some k =>
      simp only [hk] at h
      by_cases hkn : k.name = name
      · simp only [if_pos hkn, bind, Except.bind] at h
        cases hp : put fin pc (strip p) with
        | error e => simp [hp] at h
        | ok fin1 =>
          simp only [hp] at h
          rw [ih _ _ _ h]
          apply put_keep _ _ _ _ _ hp
          rintro rfl
          rw [hj] at hk
          cases hk
          exact hne hkn
      · simp [if_neg hkn] at h

theorem positionel_keep (ks : List Key) (pm : Option Nat) (b : Bool) (j : Nat) (kj : Key) (hj : ks[j]? = some kj)
    (hpm : ∀ m km, pm = some m → ks[m]? = some km → km.name ≠ kj.name) (as : List Str) :
    ∀ (s : St) (r : List Str × St), positionel ks pm b as s = .ok r →
      r.2.fin[j]? = s.fin[j]? ∧ r.2.pos = s.pos ∧ ∀ a ∈ r.1, a ∈ as := by
  induction as with
  | nil =>
    intro s r h
    simp only [positionel, Except.ok.injEq] at h
    subst h
    simp
  | cons a as ih =>
    intro s r h
    simp only [positionel] at h
    split_ifs at h with h1
    · cases h
      simp
    · cases hk : ks[s.sposc]? with
      | none =>
        simp only [hk, Except.ok.injEq] at h
        subst h
        exact ⟨rfl, rfl, fun x hx => by simp [hx]⟩
      | some k =>
        simp only [hk] at h
        cases hm : pm.bind (ks[·]?) with
        | none => simp [hm] at h
        | some km =>
          simp only [hm] at h
          by_cases hkn : k.name = km.name
          · simp only [if_pos hkn, bind, Except.bind] at h
            cases hp : put s.fin s.sposc a with
            | error e => simp [hp] at h
            | ok fin1 =>
              simp only [hp] at h
              obtain ⟨g1, g2, g3⟩ := ih _ _ h
              refine ⟨?_, g2, fun x hx => by simp [g3 x hx]⟩
              rw [g1]
              apply put_keep _ _ _ _ _ hp
              intro e
              rw [e, hj] at hk
              cases hk
              obtain ⟨m, e1, e2⟩ := Option.bind_eq_some_iff.1 hm
              exact hpm m km e1 e2 hkn.symm
          · simp only [if_neg hkn] at h
            obtain ⟨g1, g2, g3⟩ := ih _ _ h
            exact ⟨g1, g2, fun x hx => by simp [g3 x hx]⟩

theorem cut_fst (t : Str) : (cut t).1 = t.takeWhile (fun c => c ≠ '=') := by
  induction t with
  | nil => rfl
  | cons c t ih =>
    simp only [cut]
    by_cases h : c = '='
    · simp [h]
    · simp [h, ih]

theorem args_keep (ks : List Key) (pl : Bool) (pm : Option Nat) (j : Nat) (kj : Key) (hj : ks[j]? = some kj)
    (hpm : ∀ m km, pm = some m → ks[m]? = some km → km.name ≠ kj.name) (as : List Str) :
    ∀ (s s' : St), args ks pl pm as s = .ok s' →
    (∀ t, ('-' :: t) ∈ as → (t.takeWhile (fun c => c ≠ '=')).map Char.toUpper ≠ kj.name) →
    (∀ p kp, s.pos = some p → ks[p]? = some kp → kp.name ≠ kj.name) → s'.fin[j]? = s.fin[j]? := by
  induction as with
  | nil =>
    intro s s' h _ _
    simp only [args, Except.ok.injEq] at h
    rw [h]
  | cons a as ih =>
    intro s s' h ht hp
    have hrest : ∀ t, ('-' :: t) ∈ as → (t.takeWhile (fun c => c ≠ '=')).map Char.toUpper ≠ kj.name :=
      fun t h' => ht t (by simp [h'])
    by_cases hd : a.head? = some '-'
    · obtain ⟨t, rfl⟩ : ∃ t, a = '-' :: t := by
        cases a with
        | nil => simp at hd
        | cons c t =>
          simp only [List.head?_cons, Option.some.injEq] at hd
          exact ⟨t, by rw [hd]⟩
      by_cases hdd : t.head? = some '-'
      · obtain ⟨u, rfl⟩ : ∃ u, t = '-' :: u := by
          cases t with
          | nil => simp at hdd
          | cons c u =>
            simp only [List.head?_cons, Option.some.injEq] at hdd
            exact ⟨u, by rw [hdd]⟩
        simp only [args, bind, Except.bind] at h
        cases hq : positionel ks pm false as s with
        | error e => simp [hq] at h
        | ok r =>
          simp only [hq] at h
          split_ifs at h
          cases h
          exact (positionel_keep ks pm false j kj hj hpm as s r hq).1
      · rw [args_key _ _ _ _ _ _ hdd] at h
        have hname := ht t (by simp)
        cases ho : oneKey ks pl t s with
        | error e => simp [ho, Except.bind] at h
        | ok s1 =>
          simp only [ho, Except.bind] at h
          obtain ⟨f1, f2⟩ : s1.fin[j]? = s.fin[j]? ∧
              ∀ p kp, s1.pos = some p → ks[p]? = some kp → kp.name ≠ kj.name := by
            simp only [oneKey] at ho
            split_ifs at ho
            cases hf : find ks (cut t).1 with
            | none =>
              simp only [hf, fail] at ho
              split_ifs at ho
              cases ho
              exact ⟨rfl, by simp⟩
            | some p =>
              obtain ⟨hpl, hpn, -⟩ := List.findIdx?_eq_some_iff_getElem.1 hf
              have hkp : ks[p]? = some ks[p] := List.getElem?_eq_getElem hpl
              have hpn' : ks[p].name ≠ kj.name := by
                have : ks[p].name = upper (cut t).1 := by simpa using hpn
                rw [this, cut_fst]
                exact hname
              cases hc : (cut t).2 with
              | some w =>
                simp only [hf, hc, hkp, bind, Except.bind] at ho
                cases hv : values ks ks[p].name (pieces w) p s.fin with
                | error e => simp [hv] at ho
                | ok r =>
                  simp only [hv, pure, Except.pure, Except.ok.injEq] at ho
                  subst ho
                  refine ⟨values_keep ks _ j kj hj (Ne.symm hpn') _ _ _ _ hv, ?_⟩
                  intro q kq hq hkq
                  cases hq
                  rw [hkp] at hkq
                  cases hkq
                  exact hpn'
              | none =>
                simp only [hf, hc, hkp, bind, Except.bind] at ho
                cases hv : put s.fin p ks[p].dflt with
                | error e => simp [hv] at ho
                | ok r =>
                  simp only [hv, pure, Except.pure, Except.ok.injEq] at ho
                  subst ho
                  refine ⟨put_keep _ _ _ _ _ hv ?_, ?_⟩
                  · rintro rfl
                    rw [hj] at hkp
                    cases hkp
                    simp_all
                  · intro q kq hq hkq
                    cases hq
                    rw [hkp] at hkq
                    cases hkq
                    exact hpn'
          rw [ih s1 s' h hrest f2, f1]
    · rw [args_value _ _ _ _ _ _ hd] at h
      cases ho : oneValue ks pl a s with
      | error e => simp [ho, Except.bind] at h
      | ok s1 =>
        simp only [ho, Except.bind] at h
        obtain ⟨f1, f2⟩ : s1.fin[j]? = s.fin[j]? ∧ s1.pos = s.pos := by
          simp only [oneValue] at ho
          cases hpc : s.posc with
          | none =>
            simp only [hpc, fail] at ho
            split_ifs at ho
            cases ho
            exact ⟨rfl, rfl⟩
          | some pc =>
            simp only [hpc] at ho
            cases hk : ks[pc]? with
            | none => simp [hk] at ho
            | some k =>
              cases hkp : s.pos.bind (ks[·]?) with
              | none => simp [hk, hkp] at ho
              | some kp =>
                simp only [hk, hkp] at ho
                obtain ⟨p, e1, e2⟩ := Option.bind_eq_some_iff.1 hkp
                split_ifs at ho with hcle
                · simp only [bind, Except.bind] at ho
                  cases hv : values ks kp.name (pieces a) pc s.fin with
                  | error e => simp [hv] at ho
                  | ok r =>
                    simp only [hv, pure, Except.pure, Except.ok.injEq] at ho
                    subst ho
                    exact ⟨values_keep ks _ j kj hj (Ne.symm (hp p kp e1 e2)) _ _ _ _ hv, rfl⟩
                · simp only [fail] at ho
                  split_ifs at ho
                  cases ho
                  exact ⟨rfl, rfl⟩
        rw [ih s1 s' h hrest (by rw [f2]; exact hp), f1]

theorem mapM_inv {α β : Type} (f : α → Except Stop β) (l : List α) (r : List β) (h : l.mapM f = .ok r) :
    r.length = l.length ∧ ∀ (j : Nat) (x : α), l[j]? = some x → ∃ y, f x = .ok y ∧ r[j]? = some y := by
  induction l generalizing r with
  | nil =>
    simp only [List.mapM_nil, pure, Except.pure, Except.ok.injEq] at h
    subst h
    simp
  | cons x l ih =>
    rw [List.mapM_cons] at h
    simp only [bind, Except.bind] at h
    cases hf : f x with
    | error e => simp [hf] at h
    | ok y =>
      simp only [hf] at h
      cases hl : l.mapM f with
      | error e => simp [hl] at h
      | ok ys =>
        simp only [hl, pure, Except.pure, Except.ok.injEq] at h
        subst h
        obtain ⟨a, b⟩ := ih ys hl
        refine ⟨by simp [a], ?_⟩
        intro j z hz
        cases j with
        | zero =>
          simp at hz
          subst hz
          exact ⟨y, hf, by simp⟩
        | succ j => simpa using b j z (by simpa using hz)

/-- **C118** — Whatever the command line, right or wrong, a call that returns leaves the keys it does not name
with their `val`, converted as the name asks: values never reach keys of another name. -/
theorem C118_keep (junk : Int) (static0 : Nat) (keys : List (Str × Str × Str)) (npos : Int) (argv : List Str)
    (vals : List Str) (np : Int) (h : ccard junk static0 keys npos argv = .ok (vals, np))
    (j : Nat) (k0 : Str × Str × Str) (hk : keys[j]? = some k0) (hm : shown k0.1 ≠ ['-'])
    (ht : ∀ t, ('-' :: t) ∈ argv → (t.takeWhile (fun c => c ≠ '=')).map Char.toUpper ≠ shown k0.1) :
    vals[j]? = some (conv k0.1 k0.2.2) := by
  by_cases hn : keys.length ≤ 100
  swap
  · simp [ccard, hn] at h
  simp only [ccard, if_pos hn] at h
  cases hks : keys.mapM mkKey with
  | none => simp [hks] at h
  | some ks =>
    obtain ⟨hl, hsp⟩ := mkKeys_spec keys ks hks
    simp only [hks] at h
    by_cases hh : argv = [['-', 'h']] ∨ argv = [['-', 'H']]
    · simp [hh] at h
    simp only [if_neg hh] at h
    have hjl : j < ks.length := by
      rw [hl]
      exact (List.getElem?_eq_some_iff.1 hk).1
    have hj : ks[j]? = some ks[j] := List.getElem?_eq_getElem hjl
    obtain ⟨k0', a1, -, a2, -, a3, a4⟩ := hsp j ks[j] hj
    rw [hk] at a1
    cases a1
    generalize ks[j] = kj at *
    have hup : upper ['-'] = ['-'] := by decide
    have hpm : ∀ m km, find ks ['-'] = some m → ks[m]? = some km → km.name ≠ kj.name := by
      intro m km h1 h2
      obtain ⟨x1, x2, -⟩ := List.findIdx?_eq_some_iff_getElem.1 h1
      rw [List.getElem?_eq_getElem x1] at h2
      cases h2
      have : ks[m].name = ['-'] := by simpa [hup] using x2
      rw [this, a2]
      exact Ne.symm hm
    simp only [bind, Except.bind] at h
    generalize hs0 : ({ fin := ks.map (·.val), npos := junk, sposc := (find ks ['-']).getD static0 } : St) = s0 at h
    have hfin0 : s0.fin[j]? = some kj.val := by
      rw [← hs0]
      simp [hj]
    have hpos0 : s0.pos = none := by rw [← hs0]
    cases hr : lead ks (find ks ['-']) argv s0 with
    | error e => simp [hr] at h
    | ok r =>
      have hr' : r.2.fin[j]? = s0.fin[j]? ∧ r.2.pos = s0.pos ∧ ∀ a ∈ r.1, a ∈ argv := by
        unfold lead at hr
        split_ifs at hr
        · exact positionel_keep ks _ true j kj hj hpm argv s0 r hr
        · cases hr
          exact ⟨rfl, rfl, fun a ha => ha⟩
      simp only [hr] at h
      by_cases hpl : 0 < r.2.err ∧ decide (npos = -111) = true
      · simp only [if_pos hpl] at h
        cases h
      · simp only [if_neg hpl] at h
        cases ha : args ks (decide (npos = -111)) (find ks ['-']) r.1 r.2 with
        | error e => simp [ha] at h
        | ok s =>
          simp only [ha] at h
          have hk1 := args_keep ks _ _ j kj hj hpm r.1 r.2 s ha
            (fun t ht' => by rw [a2]; exact ht t (hr'.2.2 _ ht'))
            (by rw [hr'.2.1, hpos0]; simp)
          rw [hr'.1, hfin0] at hk1
          cases hf : finish ks s.fin with
          | error e => simp [hf] at h
          | ok vs =>
            simp only [hf, pure, Except.pure, Except.ok.injEq, Prod.mk.injEq] at h
            obtain ⟨rfl, -⟩ := h
            obtain ⟨-, hb⟩ := mapM_inv _ _ _ hf
            obtain ⟨y, y1, y2⟩ := hb j (kj, kj.val) (by
              rw [List.getElem?_zip_eq_some]
              exact ⟨hj, hk1⟩)
            simp only at y1
            split_ifs at y1
            cases y1
            rw [y2, a4, a3]

/-! ## Faults -/

/-- **C118** — Too many values separated by colons are not refused: when the next key has another name the
loop over the values never ends, and after the last key it reads beyond the table. -/
theorem C118_overflow_witness (junk : Int) (static0 : Nat) :
    ccard junk static0 [("a".toList, [], []), ("b".toList, [], [])] 0 ["-a=1:2".toList] = .error .loop ∧
    ccard junk static0 [("a".toList, [], [])] 0 ["-a=1:2".toList] = .error .ub ∧
    ccard junk static0 [("a".toList, [], [])] 0 ["-a".toList, "1".toList, "2".toList] = .error .ub ∧
    ccard junk static0 [("a".toList, [], [])] 0 ["-a".toList, "-b".toList, "2".toList] = .error .ub := by
  refine ⟨?_, ?_, ?_, ?_⟩ <;> rfl

/-- **C118** — `--` followed by arguments in a program without keys called `-` compares with a name before the
table (first call). -/
theorem C118_dashes_witness (junk : Int) :
    ccard junk 0 [("a".toList, [], [])] 0 ["--".toList, "x".toList] = .error .ub := rfl

/-- **C118** — The number of positional arguments returned is not theirs: one argument, any number. -/
theorem C118_npos_witness (n : Int) :
    ∃ junk, ccard junk 0 [("-".toList, [], [])] 1 ["x".toList] = .ok (["X".toList], n) :=
  ⟨n - 1, by
    have : n = n - 1 + 1 := by omega
    conv_rhs => rw [this]
    rfl⟩

/-- A command line with every form, to show that `C118` applies. -/
example :
    ccard 0 0 [("-.".toList, "".toList, "p0".toList), ("-.".toList, "".toList, "p1".toList),
        ("nk".toList, "d".toList, "v".toList), ("nk".toList, "d".toList, "w".toList),
        ("f_".toList, "YES".toList, "NO".toList), ("g".toList, "y".toList, "no".toList)] 1
      ["x".toList, "-NK".toList, "a:=b".toList, "-f".toList, "--".toList, "-y".toList] =
    .ok (["x".toList, "-y".toList, "A".toList, "B".toList, "yes".toList, "NO".toList], 2) := by rfl

/-- The hypotheses of `C118` for that kind of line. -/
example : Fits [("nk".toList, "d".toList, "v".toList), ("nk".toList, "d".toList, "w".toList)]
    ⟨"nK".toList, some ["1".toList], [(true, ["-2".toList])]⟩ 0 := by
  refine ⟨by decide, by decide, by decide, ⟨_, rfl, by decide⟩, by omega, ?_, by decide, by decide, by decide, ?_⟩
  · intro v hv
    have : v = "1".toList ∨ v = "-2".toList := by simpa [Cmd.vals] using hv
    rcases this with rfl | rfl <;> exact ⟨by decide, by decide, by decide⟩
  · intro t ht
    have : t = 0 ∨ t = 1 := by
      have : t < 2 := ht
      omega
    rcases this with rfl | rfl <;> exact ⟨_, rfl, by decide⟩

example : Positional [("a".toList, [], []), ("-".toList, [], []), ("-".toList, [], [])] 1 2 := by
  refine ⟨?_, ?_⟩
  · intro j hj k hk
    obtain rfl : j = 0 := by omega
    cases hk
    decide
  · intro t ht
    have : t = 0 ∨ t = 1 := by omega
    rcases this with rfl | rfl <;> exact ⟨_, rfl, by decide⟩

end Verif.CCard
