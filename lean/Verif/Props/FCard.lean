import Verif.FCard
import Mathlib.Tactic

/-! # C120: arguments given by keys, in Fortran (`ccard`) -/

namespace Verif.FCard

open Verif.CCard (Str Stop upper)

/-- The name under which a key given as `cle` is called. -/
def shown (cle : Str) : Str :=
  (if cle.getLast? = some '.' ∨ cle.getLast? = some '_' ∨ cle.getLast? = some ':' then cle.dropLast else cle).map
    Char.toUpper

/-- What becomes of a value for a key given as `cle`, in a string of `vlen` characters. -/
def conv (vlen : Nat) (cle v : Str) : Str :=
  (if cle.getLast? = some '.' ∨ cle.getLast? = some ':' then v
  else if cle.getLast? = some '_' then v.map Char.toLower
  else v.map Char.toUpper).take vlen

/-- What separates the values of a key given as `cle`. -/
def sep (cle : Str) : Char := if cle.getLast? = some ':' then '=' else ':'

/-- The `t`-th of `vs`, converted, goes to place `i + t`. -/
def assign (vlen : Nat) (keys : List (Str × Str)) (env : List Str) (i : Nat) : List Str → List Str
  | [] => env
  | v :: vs => assign vlen keys (env.set i (conv vlen (((keys[i]?).map (·.1)).getD []) v)) (i + 1) vs

/-- One key on the command line: the name as typed, the values attached by `=`, and the values in the
following arguments, each with or without a leading `=`. -/
structure Cmd where
  name : Str
  att : List Str
  more : List (Bool × List Str)

/-- Each of the values after a separator. -/
def after (d : Char) : List Str → Str
  | [] => []
  | v :: vs => d :: (v ++ after d vs)

/-- Values with separators between. -/
def join (d : Char) : List Str → Str
  | [] => []
  | v :: vs => v ++ after d vs

/-- The arguments for one key. -/
def Cmd.render (d : Char) (c : Cmd) : List Str :=
  ('-' :: c.name ++ (if c.att = [] then [] else '=' :: join d c.att)) ::
    c.more.map fun g => (if g.1 then ['='] else []) ++ join d g.2

/-- All values for one key, in order. -/
def Cmd.vals (c : Cmd) : List Str := c.att ++ c.more.flatMap (·.2)

/-- A value that can be written. -/
def Plain (d : Char) (v : Str) : Prop := v ≠ [] ∧ '=' ∉ v ∧ d ∉ v ∧ v.getLast? ≠ some ' '

/-- A key of the command line is the `i`-th key, and its values fit in the keys of the same name. -/
structure Fits (keys : List (Str × Str)) (c : Cmd) (i : Nat) (d : Char) : Prop where
  nonempty : c.name ≠ []
  noEq : '=' ∉ c.name
  noColon : ':' ∉ c.name
  noDash : c.name.head? ≠ some '-'
  noBlank : c.name.getLast? ≠ some ' '
  isKey : ∃ k, keys[i]? = some k ∧ shown k.1 = c.name.map Char.toUpper ∧ d = sep k.1
  first : ∀ j < i, ∀ k, keys[j]? = some k → rtrim (shown k.1) ≠ c.name.map Char.toUpper
  plain : ∀ v ∈ c.vals, Plain d v
  more : ∀ g ∈ c.more, g.2 ≠ []
  minus : ∀ g ∈ c.more, g.1 = false → (join d g.2).head? ≠ some '-'
  room : ∀ t < c.vals.length, ∃ k, keys[i + t]? = some k ∧ (keys[i]?).map (fun q => shown q.1) = some (shown k.1)
  long : ∀ a ∈ c.render d, a.length ≤ 8192

/-- What one key of the command line does. -/
def Cmd.effect (vlen : Nat) (keys : List (Str × Str)) (env : List Str) (ci : Cmd × Nat × Char) : List Str :=
  assign vlen keys (assign vlen keys env ci.2.1 [((keys[ci.2.1]?).map (·.2)).getD []]) ci.2.1 ci.1.vals

/-! ## Names -/

theorem toUpper_eq (c d : Char) (hd : d = '.' ∨ d = '_' ∨ d = ':' ∨ d = ' ') : Char.toUpper c = d ↔ c = d := by
  unfold Char.toUpper
  split_ifs with h
  · constructor
    · intro hc
      exfalso
      have := congrArg (fun x : Char => x.val.toNat) hc
      obtain ⟨h1, h2⟩ := h
      rw [UInt32.le_iff_toNat_le] at h1 h2
      have a1 : 'a'.val.toNat = 97 := by decide
      have a2 : 'z'.val.toNat = 122 := by decide
      have e : (c.val + ('A'.val - 'a'.val)).toNat = c.val.toNat - 32 := by
        rw [UInt32.toNat_add]
        have : ('A'.val - 'a'.val).toNat = 4294967264 := by decide
        rw [this]
        omega
      dsimp only at this
      rw [e] at this
      rcases hd with rfl | rfl | rfl | rfl
      · have : '.'.val.toNat = 46 := by decide
        omega
      · have : '_'.val.toNat = 95 := by decide
        omega
      · have : ':'.val.toNat = 58 := by decide
        omega
      · have : ' '.val.toNat = 32 := by decide
        omega
    · rintro rfl
      exfalso
      rcases hd with rfl | rfl | rfl | rfl <;> revert h <;> decide
  · exact Iff.rfl

theorem mkKey_eq (k : Str × Str) (h : k.1 ≠ []) (h50 : k.1.length ≤ 50) :
    ∃ t, mkKey k = some ⟨shown k.1, t, k.2⟩ ∧ (∀ n v, (trns t v).take n = conv n k.1 v) ∧
      (if t = 2 then '=' else ':') = sep k.1 := by
  obtain ⟨cle, d⟩ := k
  simp only at h h50
  obtain ⟨init, x, rfl⟩ : ∃ a b, cle = a ++ [b] := ⟨cle.dropLast, cle.getLast h, (List.dropLast_append_getLast h).symm⟩
  simp only [mkKey, if_neg (by omega : ¬ 50 < (init ++ [x]).length), upper, shown, conv, sep, List.map_append,
    List.map_cons, List.map_nil, List.getLast?_append, List.getLast?_singleton, Option.some_or, List.dropLast_concat,
    Option.some.injEq]
  by_cases h1 : x = '.'
  · subst h1
    exact ⟨0, by simp [Char.toUpper], fun n v => by simp [trns], by simp⟩
  · by_cases h2 : x = '_'
    · subst h2
      exact ⟨-1, by simp [Char.toUpper], fun n v => by simp [trns], by simp⟩
    · by_cases h3 : x = ':'
      · subst h3
        exact ⟨2, by simp [Char.toUpper], fun n v => by simp [trns], by simp⟩
      · have u1 : Char.toUpper x ≠ '.' := fun h => h1 ((toUpper_eq x '.' (by simp)).1 h)
        have u2 : Char.toUpper x ≠ '_' := fun h => h2 ((toUpper_eq x '_' (by simp)).1 h)
        have u3 : Char.toUpper x ≠ ':' := fun h => h3 ((toUpper_eq x ':' (by simp)).1 h)
        refine ⟨1, ?_, fun n v => by simp [trns, h1, h2, h3], by simp [h3]⟩
        split
        · simp_all
        · simp_all
        · simp_all
        · simp_all
        · simp [h1, h2, h3]

theorem mkKeys_spec (keys : List (Str × Str)) (h : ∀ k ∈ keys, k.1 ≠ [] ∧ k.1.length ≤ 50) :
    ∃ ks, keys.mapM mkKey = some ks ∧ ks.length = keys.length ∧
      ∀ (i : Nat) (k0 : Str × Str), keys[i]? = some k0 → ∃ k, ks[i]? = some k ∧ k.name = shown k0.1 ∧
        k.dflt = k0.2 ∧ (∀ n v, (trns k.typ v).take n = conv n k0.1 v) ∧
        (if k.typ = 2 then '=' else ':') = sep k0.1 := by
  induction keys with
  | nil => exact ⟨[], rfl, rfl, by simp⟩
  | cons k0 keys ih =>
    obtain ⟨ks, h1, h2, h3⟩ := ih fun k hk => h k (by simp [hk])
    obtain ⟨t, e1, e2, e3⟩ := mkKey_eq k0 (h k0 (by simp)).1 (h k0 (by simp)).2
    refine ⟨⟨shown k0.1, t, k0.2⟩ :: ks, ?_, by simp [h2], ?_⟩
    · rw [List.mapM_cons, h1, e1]
      rfl
    · intro i k hk
      cases i with
      | zero =>
        simp at hk
        subst hk
        exact ⟨_, rfl, rfl, rfl, e2, e3⟩
      | succ i => simpa using h3 i k (by simpa using hk)

theorem rtrim_id (s : Str) (h : s.getLast? ≠ some ' ') : rtrim s = s := by
  unfold rtrim
  rcases List.eq_nil_or_concat s with rfl | ⟨l, c, rfl⟩
  · rfl
  · simp only [List.concat_eq_append] at *
    have hc : c ≠ ' ' := by
      intro e
      apply h
      simp [e]
    simp [hc]

/-! ## Reading one argument -/

/-- What `ccard` does, for all keys and arguments at hand. -/
structure Ctx (keys : List (Str × Str)) (ks : List Key) : Prop where
  len : ks.length = keys.length
  key : ∀ (i : Nat) (k0 : Str × Str), keys[i]? = some k0 → ∃ k, ks[i]? = some k ∧ k.name = shown k0.1 ∧
        k.dflt = k0.2 ∧ (∀ n v, (trns k.typ v).take n = conv n k0.1 v) ∧
        (if k.typ = 2 then '=' else ':') = sep k0.1

theorem takeWhile_stop (p : Char → Bool) (v w : Str) (hv : ∀ c ∈ v, p c = true)
    (hw : w = [] ∨ ∃ c t, w = c :: t ∧ p c = false) : (v ++ w).takeWhile p = v := by
  induction v with
  | nil =>
    rcases hw with rfl | ⟨c, t, rfl, hc⟩
    · rfl
    · simp [hc]
  | cons c v ih =>
    simp only [List.cons_append, List.takeWhile_cons, hv c (by simp), if_true]
    rw [ih fun x hx => hv x (by simp [hx])]

theorem extract_spec (d : Char) (pre v w : Str) (ix : Nat) (hix : ix = pre.length + 1) (hv : '=' ∉ v ∧ d ∉ v)
    (hw : w = [] ∨ ∃ c t, w = c :: t ∧ (c = '=' ∨ c = d)) :
    extract d ix (pre ++ (v ++ w)) = (v, ix + v.length) := by
  subst hix
  have : (v ++ w).takeWhile (fun c => c ≠ '=' ∧ c ≠ d) = v := by
    apply takeWhile_stop
    · intro c hc
      simp only [decide_eq_true_eq]
      exact ⟨fun e => hv.1 (e ▸ hc), fun e => hv.2 (e ▸ hc)⟩
    · rcases hw with rfl | ⟨c, t, rfl, hc⟩
      · exact Or.inl rfl
      · refine Or.inr ⟨c, t, rfl, ?_⟩
        rcases hc with rfl | rfl <;> simp
  simp only [extract, Nat.add_sub_cancel, List.drop_left, this]

theorem after_start (d : Char) (vs : List Str) : after d vs = [] ∨ ∃ c t, after d vs = c :: t ∧ (c = '=' ∨ c = d) := by
  cases vs with
  | nil => exact Or.inl rfl
  | cons v vs => exact Or.inr ⟨d, _, rfl, Or.inr rfl⟩

/-- One step of the loop on a value. -/
theorem step_value (keys : List (Str × Str)) (ks : List Key) (hx : Ctx keys ks) (vlen : Nat) (pl : Bool) (s : S)
    (v : Str) (k0 kc : Str × Str) (h1 : keys[s.pos]? = some k0) (h2 : keys[s.posc]? = some kc)
    (h3 : shown k0.1 = shown kc.1) :
    step ks vlen pl 2 v s = .ok { s with val := assign vlen keys s.val s.posc [v], posc := s.posc + 1 } := by
  obtain ⟨a, a1, a2, -⟩ := hx.key _ _ h1
  obtain ⟨b, b1, b2, -, b3, -⟩ := hx.key _ _ h2
  simp only [step, (by decide : ¬ (2 = 1)), if_false, if_true, a1, b1, a2, b2, h3, assign, h2, Option.map_some,
    Option.getD_some, b3]

theorem assign_cons (vlen : Nat) (keys : List (Str × Str)) (env : List Str) (i : Nat) (v : Str) (vs : List Str) :
    assign vlen keys env i (v :: vs) = assign vlen keys (assign vlen keys env i [v]) (i + 1) vs := rfl

theorem assign_append (vlen : Nat) (keys : List (Str × Str)) (env : List Str) (i : Nat) (vs ws : List Str) :
    assign vlen keys env i (vs ++ ws) = assign vlen keys (assign vlen keys env i vs) (i + vs.length) ws := by
  induction vs generalizing env i with
  | nil => rfl
  | cons v vs ih =>
    rw [List.cons_append, assign_cons, ih, List.length_cons, assign_cons vlen keys env i v vs,
      show i + (vs.length + 1) = i + 1 + vs.length by omega]

/-- The values after the first in an argument. -/
theorem tail_ok (keys : List (Str × Str)) (ks : List Key) (hx : Ctx keys ks) (vlen : Nat) (pl : Bool) (narg : Nat)
    (k0 : Str × Str) (d : Char) (hd : d = sep k0.1) (vs : List Str) :
    ∀ (f : Nat) (t : T) (s : S) (pre : Str), t.cur = pre ++ after d vs → t.ix = pre.length + 1 → pre ≠ [] →
    t.pud = false → t.pasd = false → keys[s.pos]? = some k0 → (∀ v ∈ vs, Plain d v) →
    (∀ j < vs.length, ∃ k, keys[s.posc + j]? = some k ∧ shown k0.1 = shown k.1) →
    run ks vlen pl narg (f + vs.length) t s = run ks vlen pl narg f { t with ix := t.cur.length + 1 }
      { s with val := assign vlen keys s.val s.posc vs, posc := s.posc + vs.length } := by
  induction vs with
  | nil =>
    intro f t s pre h1 h2 _ _ _ _ _ _
    simp only [after, List.append_nil] at h1
    simp only [List.length_nil, Nat.add_zero, assign, h1, ← h2]
    rw [← h1]
  | cons v vs ih =>
    intro f t s pre h1 h2 hpre h3 h4 h5 h6 h7
    obtain ⟨hv1, hv2, hv3, -⟩ := h6 v (by simp)
    have hvl : 0 < v.length := List.length_pos_iff.2 hv1
    have hpl : 0 < pre.length := List.length_pos_iff.2 hpre
    obtain ⟨k, a1, a2, a3, a4, a5⟩ := hx.key _ _ h5
    obtain ⟨kc, c1, c2⟩ := h7 0 (by simp)
    simp only [Nat.add_zero] at c1
    have hlen : ¬ t.cur.length ≤ t.ix := by
      rw [h1, h2]
      simp only [after, List.length_append, List.length_cons]
      omega
    have hq : qqqobm narg k.typ t = (2, v, { t with ix := pre.length + 2 + v.length }) := by
      have hget : t.cur[t.ix - 1]? = some d := by
        rw [h1, h2]
        simp [after]
      have hext : extract d (pre.length + 1 + 1) t.cur = (v, pre.length + 1 + 1 + v.length) := by
        have := extract_spec d (pre ++ [d]) v (after d vs) (pre.length + 1 + 1) (by simp) ⟨hv2, hv3⟩ (after_start d vs)
        rw [← this, h1]
        simp [after]
      have hf : fetch t = some (t, false) := by simp only [fetch, if_neg hlen]
      have h1' : ¬ t.ix = 1 := by omega
      simp only [qqqobm, hf, a5, ← hd, Bool.false_eq_true, false_and, if_false, h1', h3, h4, hget, or_self, true_or, if_true]
      rw [h2, hext]
    rw [List.length_cons, ← Nat.add_assoc, run]
    simp only [a1, hq, (by decide : ¬ (2 = 0)), if_false, step_value keys ks hx vlen pl s v k0 kc h5 c1 c2, bind, Except.bind]
    rw [ih f { t with ix := pre.length + 2 + v.length }
      { s with val := assign vlen keys s.val s.posc [v], posc := s.posc + 1 } (pre ++ d :: v) (by simp [h1, after])
      (by simp; omega) (by simp) h3 h4 h5
      (fun w hw => h6 w (by simp [hw]))
      (fun j hj => by
        have := h7 (j + 1) (by simp; omega)
        rwa [show s.posc + (j + 1) = s.posc + 1 + j by omega] at this)]
    simp only
    rw [← assign_cons, show s.posc + 1 + vs.length = s.posc + (vs.length + 1) by omega]

/-- An argument with values. -/
theorem group_ok (keys : List (Str × Str)) (ks : List Key) (hx : Ctx keys ks) (vlen : Nat) (pl : Bool) (narg : Nat)
    (k0 : Str × Str) (d : Char) (hd : d = sep k0.1) (e : Bool) (vs : List Str) (hne : vs ≠ [])
    (t : T) (s : S) (rest : List Str)
    (h1 : t.rest = ((if e then ['='] else []) ++ join d vs) :: rest) (h2 : t.cur.length ≤ t.ix)
    (h3 : t.pud = false) (h4 : t.pasd = false) (h5 : keys[s.pos]? = some k0) (h6 : ∀ v ∈ vs, Plain d v)
    (h7 : ∀ j < vs.length, ∃ k, keys[s.posc + j]? = some k ∧ shown k0.1 = shown k.1)
    (h8 : e = false → (join d vs).head? ≠ some '-') (h9 : narg ≠ 1)
    (h10 : ((if e then ['='] else []) ++ join d vs).length ≤ 8192) :
    ∃ t' : T, t'.cur.length ≤ t'.ix ∧ t'.pud = false ∧ t'.pasd = false ∧ t'.rest = rest ∧
      ∀ f, run ks vlen pl narg (f + vs.length) t s = run ks vlen pl narg f t'
        { s with val := assign vlen keys s.val s.posc vs, posc := s.posc + vs.length } := by
  obtain ⟨v, vs, rfl⟩ := List.exists_cons_of_ne_nil hne
  obtain ⟨hv1, hv2, hv3, hv4⟩ := h6 v (by simp)
  have hvl : 0 < v.length := List.length_pos_iff.2 hv1
  obtain ⟨k, a1, a2, a3, a4, a5⟩ := hx.key _ _ h5
  obtain ⟨kc, c1, c2⟩ := h7 0 (by simp)
  simp only [Nat.add_zero] at c1
  have hlast : ∀ (ws : List Str), (∀ w ∈ ws, Plain d w) → ∀ u : Str, u ≠ [] → u.getLast? ≠ some ' ' →
      (u ++ after d ws).getLast? ≠ some ' ' := by
    intro ws
    induction ws with
    | nil =>
      intro _ u _ hu
      simpa [after] using hu
    | cons w ws ih =>
      intro hw u hu hul
      have hw1 := hw w (by simp)
      have := ih (fun x hx => hw x (by simp [hx])) (u ++ d :: w) (by simp) (by
        rw [List.getLast?_append]
        have : (d :: w).getLast? = w.getLast? := by
          obtain ⟨y, ys, rfl⟩ := List.exists_cons_of_ne_nil hw1.1
          simp [List.getLast?_cons_cons]
        rw [this]
        cases hwl : w.getLast? with
        | none => simp [List.getLast?_eq_none_iff.1 hwl] at hw1; exact absurd rfl hw1.1
        | some y =>
          have := hw1.2.2.2
          rw [hwl] at this
          simpa using this)
      simpa [after] using this
  set a := (if e then ['='] else []) ++ join d (v :: vs) with ha
  have hcur : rtrim (a.take 8192) = a := by
    rw [List.take_of_length_le h10]
    apply rtrim_id
    have := hlast vs (fun w hw => h6 w (by simp [hw])) ((if e then ['='] else []) ++ v) (by simp [hv1]) (by
      rw [List.getLast?_append]
      cases hwl : v.getLast? with
      | none => exact absurd (List.getLast?_eq_none_iff.1 hwl) hv1
      | some y =>
        rw [hwl] at hv4
        simpa using hv4)
    simpa [ha, join] using this
  have hhead : ¬ (a[0]? = some '-') := by
    cases e with
    | true => simp [ha]
    | false =>
      have := h8 rfl
      rw [← List.head?_eq_getElem?]
      simpa [ha] using this
  have hq : qqqobm narg k.typ t =
      (2, v, { t with cur := a, ix := ((if e then ['='] else []) ++ v).length + 1, rest := rest }) := by
    have hnd : v[0]? ≠ some d ∧ v[0]? ≠ some '=' := by
      obtain ⟨x, xs, rfl⟩ := List.exists_cons_of_ne_nil hv1
      simp only [List.mem_cons, not_or] at hv2 hv3
      simp only [List.getElem?_cons_zero, ne_eq, Option.some.injEq]
      exact ⟨fun h => hv3.1 h.symm, fun h => hv2.1 h.symm⟩
    simp only [qqqobm, fetch, if_pos h2, h1, hcur, a5, ← hd, h9, false_and, and_false, if_false, hhead, h3, h4,
      Bool.false_eq_true, or_self, Nat.sub_self]
    cases e with
    | true =>
      have h0 : a[0]? = some '=' := by simp [ha]
      have := extract_spec d ['='] v (after d vs) 2 rfl ⟨hv2, hv3⟩ (after_start d vs)
      simp only [h0, or_true, if_true]
      have ha' : a = ['='] ++ (v ++ after d vs) := by simp [ha, join]
      rw [ha', this]
      simp; omega
    | false =>
      have ha' : a = [] ++ (v ++ after d vs) := by simp [ha, join]
      have h0 : a[0]? = v[0]? := by
        rw [ha']
        simp [List.getElem?_append_left hvl]
      have := extract_spec d [] v (after d vs) 1 rfl ⟨hv2, hv3⟩ (after_start d vs)
      simp only [h0, hnd.1, hnd.2, or_self, if_false]
      rw [ha', this]
      simp [Nat.add_comm]
  refine ⟨{ t with cur := a, rest := rest, ix := a.length + 1 }, Nat.le_succ _, h3, h4, rfl, fun f => ?_⟩
  rw [List.length_cons, ← Nat.add_assoc, run]
  simp only [a1, hq, (by decide : ¬ (2 = 0)), if_false, step_value keys ks hx vlen pl s v k0 kc h5 c1 c2, bind, Except.bind]
  rw [tail_ok keys ks hx vlen pl narg k0 d hd vs f
    { t with cur := a, ix := ((if e then ['='] else []) ++ v).length + 1, rest := rest }
    { s with val := assign vlen keys s.val s.posc [v], posc := s.posc + 1 } ((if e then ['='] else []) ++ v)
    (by simp [ha, join]) rfl (by simp [hv1]) h3 h4 h5
    (fun w hw => h6 w (by simp [hw]))
    (fun j hj => by
      have := h7 (j + 1) (by simp; omega)
      rwa [show s.posc + (j + 1) = s.posc + 1 + j by omega] at this)]
  simp only
  rw [← assign_cons, show s.posc + 1 + vs.length = s.posc + (vs.length + 1) by omega]

/-! ## Keys and positional arguments -/

/-- The first value attached to a key, and those after it. -/
theorem att_ok (keys : List (Str × Str)) (ks : List Key) (hx : Ctx keys ks) (vlen : Nat) (pl : Bool) (narg : Nat)
    (k0 : Str × Str) (d : Char) (hd : d = sep k0.1) (v : Str) (vs : List Str)
    (f : Nat) (t : T) (s : S) (pre : Str) (h1 : t.cur = pre ++ '=' :: (v ++ after d vs)) (h2 : t.ix = pre.length + 1)
    (hpre : pre ≠ []) (h3 : t.pud = false) (h4 : t.pasd = false) (h5 : keys[s.pos]? = some k0)
    (h6 : ∀ w ∈ v :: vs, Plain d w)
    (h7 : ∀ j < (v :: vs).length, ∃ k, keys[s.posc + j]? = some k ∧ shown k0.1 = shown k.1) :
    run ks vlen pl narg (f + (v :: vs).length) t s = run ks vlen pl narg f { t with ix := t.cur.length + 1 }
      { s with val := assign vlen keys s.val s.posc (v :: vs), posc := s.posc + (v :: vs).length } := by
  obtain ⟨hv1, hv2, hv3, -⟩ := h6 v (by simp)
  have hvl : 0 < v.length := List.length_pos_iff.2 hv1
  have hpl : 0 < pre.length := List.length_pos_iff.2 hpre
  obtain ⟨k, a1, a2, a3, a4, a5⟩ := hx.key _ _ h5
  obtain ⟨kc, c1, c2⟩ := h7 0 (by simp)
  simp only [Nat.add_zero] at c1
  have hlen : ¬ t.cur.length ≤ t.ix := by
    rw [h1, h2]
    simp only [List.length_append, List.length_cons]
    omega
  have hq : qqqobm narg k.typ t = (2, v, { t with ix := pre.length + 2 + v.length }) := by
    have hget : t.cur[t.ix - 1]? = some '=' := by
      rw [h1, h2]
      simp
    have hext : extract d (pre.length + 1 + 1) t.cur = (v, pre.length + 1 + 1 + v.length) := by
      have := extract_spec d (pre ++ ['=']) v (after d vs) (pre.length + 1 + 1) (by simp) ⟨hv2, hv3⟩ (after_start d vs)
      rw [← this, h1]
      simp
    have hf : fetch t = some (t, false) := by simp only [fetch, if_neg hlen]
    have h1' : ¬ t.ix = 1 := by omega
    simp only [qqqobm, hf, a5, ← hd, Bool.false_eq_true, false_and, if_false, h1', h3, h4, hget, or_self, or_true, if_true]
    rw [h2, hext]
  rw [List.length_cons, ← Nat.add_assoc, run]
  simp only [a1, hq, (by decide : ¬ (2 = 0)), if_false, step_value keys ks hx vlen pl s v k0 kc h5 c1 c2, bind, Except.bind]
  rw [tail_ok keys ks hx vlen pl narg k0 d hd vs f { t with ix := pre.length + 2 + v.length }
    { s with val := assign vlen keys s.val s.posc [v], posc := s.posc + 1 } (pre ++ '=' :: v) (by simp [h1])
    (by simp; omega) (by simp) h3 h4 h5
    (fun w hw => h6 w (by simp [hw]))
    (fun j hj => by
      have := h7 (j + 1) (by simp; omega)
      rwa [show s.posc + (j + 1) = s.posc + 1 + j by omega] at this)]
  simp only
  rw [← assign_cons, show s.posc + 1 + vs.length = s.posc + (vs.length + 1) by omega]

theorem getLast_after (d : Char) (ws : List Str) (hw : ∀ w ∈ ws, Plain d w) (u : Str) (hul : u.getLast? ≠ some ' ') :
    (u ++ after d ws).getLast? ≠ some ' ' := by
  induction ws generalizing u with
  | nil => simpa [after] using hul
  | cons w ws ih =>
    have hw1 := hw w (by simp)
    have := ih (fun x hx => hw x (by simp [hx])) (u ++ d :: w) (by
      obtain ⟨y, ys, e⟩ := List.exists_cons_of_ne_nil hw1.1
      have h1 : (u ++ d :: w).getLast? = w.getLast? := by
        rw [List.getLast?_append, e, List.getLast?_cons_cons]
        cases h : (y :: ys).getLast? with
        | none => simp at h
        | some z => rfl
      rw [h1]
      exact hw1.2.2.2)
    simpa [after] using this

theorem upper_last (s : Str) (h : s.getLast? ≠ some ' ') : (s.map Char.toUpper).getLast? ≠ some ' ' := by
  rw [List.getLast?_map]
  cases hl : s.getLast? with
  | none => simp
  | some c =>
    rw [hl] at h
    simp only [Option.map_some, ne_eq, Option.some.injEq] at h ⊢
    exact fun e => h ((toUpper_eq c ' ' (by simp)).1 e)

/-- A name of a key on the command line. -/
theorem key_ok (keys : List (Str × Str)) (ks : List Key) (hx : Ctx keys ks) (vlen : Nat) (pl : Bool) (narg : Nat)
    (c : Cmd) (i : Nat) (d : Char) (hc : Fits keys c i d) (k0 : Str × Str) (hk0 : keys[i]? = some k0)
    (hn0 : shown k0.1 = c.name.map Char.toUpper) (tl : Str) (htl : tl = [] ∨ ∃ u, tl = '=' :: u)
    (f : Nat) (t : T) (s : S) (rest : List Str)
    (h1 : t.rest = ('-' :: c.name ++ tl) :: rest) (h2 : t.cur.length ≤ t.ix) (h3 : t.pud = false)
    (h4 : ('-' :: c.name ++ tl).length ≤ 8192) (h5 : ('-' :: c.name ++ tl).getLast? ≠ some ' ')
    (h6 : narg = 1 → help ('-' :: c.name ++ tl) = false) (h7 : s.pos < keys.length) :
    run ks vlen pl narg (f + 1) t s = run ks vlen pl narg f
      { pasd := false, pud := false, cur := '-' :: c.name ++ tl, ix := c.name.length + 2, rest := rest }
      { s with val := assign vlen keys s.val i [k0.2], pos := i, posc := i } := by
  obtain ⟨kp, p1, -⟩ := hx.key s.pos _ (List.getElem?_eq_getElem h7)
  obtain ⟨k, a1, a2, a3, a4, a5⟩ := hx.key i k0 hk0
  have hcur : rtrim (('-' :: c.name ++ tl).take 8192) = '-' :: c.name ++ tl := by
    rw [List.take_of_length_le h4, rtrim_id _ h5]
  obtain ⟨x, xs, hxs⟩ := List.exists_cons_of_ne_nil hc.nonempty
  have hq : qqqobm narg kp.typ t = (1, c.name,
      { pasd := false, pud := false, cur := '-' :: c.name ++ tl, ix := c.name.length + 2, rest := rest }) := by
    have hext : ∀ e : Char, e = '=' ∨ e = ':' → extract e 2 ('-' :: c.name ++ tl) = (c.name, c.name.length + 2) := by
      intro e he
      have := extract_spec e ['-'] c.name tl 2 rfl
        ⟨hc.noEq, by rcases he with rfl | rfl; exact hc.noEq; exact hc.noColon⟩ (by
        rcases htl with rfl | ⟨u, rfl⟩
        · exact Or.inl rfl
        · exact Or.inr ⟨'=', u, rfl, Or.inl rfl⟩)
      have e2 : '-' :: c.name ++ tl = ['-'] ++ (c.name ++ tl) := by simp
      rw [e2, this, Nat.add_comm]
    have hdash : (('-' :: c.name ++ tl)[1]? = some '-') = False := by
      have := hc.noDash
      rw [hxs] at this ⊢
      simpa using this
    have hext' : extract (if kp.typ = 2 then '=' else ':') 2 ('-' :: c.name ++ tl) = (c.name, c.name.length + 2) := by
      apply hext
      split_ifs <;> simp
    have hh : (True ∧ narg = 1 ∧ help ('-' :: c.name ++ tl) = true) = False := by
      simp only [true_and, eq_iff_iff, iff_false]
      rintro ⟨e1, e2⟩
      rw [h6 e1] at e2
      cases e2
    have h0 : ('-' :: c.name ++ tl)[0]? = some '-' := rfl
    simp only [qqqobm, fetch, if_pos h2, h1, hcur, hh, h0, h3, and_self, if_true, if_false, hext', hdash, decide_false]
  have hfind : ks.findIdx? (fun k => rtrim (upper c.name) = rtrim k.name) = some i := by
    have hi : i < ks.length := by
      rw [hx.len]
      exact (List.getElem?_eq_some_iff.1 hk0).1
    have hup : rtrim (upper c.name) = c.name.map Char.toUpper := rtrim_id _ (upper_last _ hc.noBlank)
    rw [List.findIdx?_eq_some_iff_getElem]
    refine ⟨hi, ?_, ?_⟩
    · rw [List.getElem?_eq_getElem hi] at a1
      cases a1
      have : rtrim ks[i].name = c.name.map Char.toUpper := by
        rw [a2, hn0]
        exact hup
      simp [hup, this]
    · intro j hj
      have hjl : j < keys.length := by
        rw [← hx.len]
        omega
      obtain ⟨kj, b1, b2, -⟩ := hx.key j _ (List.getElem?_eq_getElem hjl)
      rw [List.getElem?_eq_getElem (by omega)] at b1
      cases b1
      have := hc.first j hj _ (List.getElem?_eq_getElem hjl)
      rw [hup, b2]
      simp only [decide_eq_true_eq]
      exact fun e => this e.symm
  rw [run]
  simp only [p1, hq, (by decide : ¬ (1 = 0)), if_false, step, if_true, hfind, a1, a3, bind, Except.bind, assign, hk0,
    Option.map_some, Option.getD_some, a4]

theorem more_ok (keys : List (Str × Str)) (ks : List Key) (hx : Ctx keys ks) (vlen : Nat) (pl : Bool) (narg : Nat)
    (hnarg : narg ≠ 1) (k0 : Str × Str) (d : Char) (hd : d = sep k0.1) (rest : List Str) (gs : List (Bool × List Str)) :
    ∀ (t : T) (s : S), t.rest = (gs.map fun g => (if g.1 then ['='] else []) ++ join d g.2) ++ rest →
    t.cur.length ≤ t.ix → t.pud = false → t.pasd = false → keys[s.pos]? = some k0 →
    (∀ g ∈ gs, g.2 ≠ []) → (∀ g ∈ gs, ∀ v ∈ g.2, Plain d v) →
    (∀ g ∈ gs, g.1 = false → (join d g.2).head? ≠ some '-') →
    (∀ g ∈ gs, ((if g.1 then ['='] else []) ++ join d g.2).length ≤ 8192) →
    (∀ j < (gs.flatMap (·.2)).length, ∃ k, keys[s.posc + j]? = some k ∧ shown k0.1 = shown k.1) →
    ∃ (cost : Nat) (t' : T), t'.cur.length ≤ t'.ix ∧ t'.pud = false ∧ t'.pasd = false ∧ t'.rest = rest ∧
      ∀ f, run ks vlen pl narg (f + cost) t s = run ks vlen pl narg f t'
        { s with val := assign vlen keys s.val s.posc (gs.flatMap (·.2)),
                 posc := s.posc + (gs.flatMap (·.2)).length } := by
  induction gs with
  | nil =>
    intro t s h1 h2 h3 h4 _ _ _ _ _ _
    exact ⟨0, t, h2, h3, h4, by simpa using h1, fun f => by simp [assign]⟩
  | cons g gs ih =>
    intro t s h1 h2 h3 h4 h5 h6 h7 h8 h9 h10
    simp only [List.flatMap_cons, List.length_append] at h10
    obtain ⟨t1, u1, u2, u3, u4, u5⟩ := group_ok keys ks hx vlen pl narg k0 d hd g.1 g.2 (h6 g (by simp)) t s
      ((gs.map fun g => (if g.1 then ['='] else []) ++ join d g.2) ++ rest) (by simpa using h1) h2 h3 h4 h5
      (h7 g (by simp)) (fun j hj => h10 j (by omega)) (h8 g (by simp)) hnarg (h9 g (by simp))
    obtain ⟨cost, t', e1, e2, e3, e4, e5⟩ := ih t1
      { s with val := assign vlen keys s.val s.posc g.2, posc := s.posc + g.2.length } u4 u1 u2 u3 h5
      (fun g' hg => h6 g' (by simp [hg])) (fun g' hg => h7 g' (by simp [hg])) (fun g' hg => h8 g' (by simp [hg]))
      (fun g' hg => h9 g' (by simp [hg]))
      (fun j hj => by
        obtain ⟨k, e1, e2⟩ := h10 (g.2.length + j) (by omega)
        exact ⟨k, by rw [← e1]; congr 1; simp only; omega, e2⟩)
    refine ⟨cost + g.2.length, t', e1, e2, e3, e4, fun f => ?_⟩
    rw [← Nat.add_assoc, u5, e5]
    simp only [List.flatMap_cons, List.length_append, assign_append, Nat.add_assoc]

theorem cmd_ok (keys : List (Str × Str)) (ks : List Key) (hx : Ctx keys ks) (vlen : Nat) (pl : Bool) (narg : Nat)
    (c : Cmd) (i : Nat) (d : Char) (hc : Fits keys c i d) (rest : List Str) (t : T) (s : S)
    (h1 : t.rest = c.render d ++ rest) (h2 : t.cur.length ≤ t.ix) (h3 : t.pud = false) (h4 : s.pos < keys.length)
    (h5 : narg = 1 → c.more = [] ∧ ∀ a ∈ c.render d, help a = false) :
    ∃ (cost : Nat) (t' : T) (pc : Nat), t'.cur.length ≤ t'.ix ∧ t'.pud = false ∧ t'.pasd = false ∧ t'.rest = rest ∧
      i < keys.length ∧
      ∀ f, run ks vlen pl narg (f + cost) t s = run ks vlen pl narg f t'
        { s with val := Cmd.effect vlen keys s.val (c, i, d), pos := i, posc := pc } := by
  obtain ⟨k0, hk0, hn0, hd⟩ := hc.isKey
  have hi : i < keys.length := (List.getElem?_eq_some_iff.1 hk0).1
  have hroom : ∀ j < c.vals.length, ∃ k, keys[i + j]? = some k ∧ shown k0.1 = shown k.1 := by
    intro j hj
    obtain ⟨k, a, b⟩ := hc.room j hj
    rw [hk0] at b
    simp only [Option.map_some, Option.some.injEq] at b
    exact ⟨k, a, b⟩
  set tl : Str := (if c.att = [] then [] else '=' :: join d c.att) with htl
  have hlong := hc.long ('-' :: c.name ++ tl) (by simp [Cmd.render, htl])
  have hhelp : narg = 1 → help ('-' :: c.name ++ tl) = false := fun e => (h5 e).2 _ (by simp [Cmd.render, htl])
  have hname : ('-' :: c.name).getLast? ≠ some ' ' := by
    obtain ⟨x, xs, e⟩ := List.exists_cons_of_ne_nil hc.nonempty
    rw [e, List.getLast?_cons_cons, ← e]
    exact hc.noBlank
  have hplatt : ∀ v ∈ c.att, Plain d v := fun v hv => hc.plain v (by simp [Cmd.vals, hv])
  have hlast : ('-' :: c.name ++ tl).getLast? ≠ some ' ' := by
    cases ha : c.att with
    | nil => simpa [htl, ha] using hname
    | cons v vs =>
      have := getLast_after d vs (fun w hw => hplatt w (by simp [ha, hw])) ('-' :: c.name ++ '=' :: v) (by
        have hv := hplatt v (by simp [ha])
        obtain ⟨y, ys, e⟩ := List.exists_cons_of_ne_nil hv.1
        have h1 : ('-' :: c.name ++ '=' :: v).getLast? = v.getLast? := by
          rw [List.getLast?_append, e, List.getLast?_cons_cons]
          cases h : (y :: ys).getLast? with
          | none => simp at h
          | some z => rfl
        rw [h1]
        exact hv.2.2.2)
      simpa [htl, ha, join] using this
  have hkey := fun f => key_ok keys ks hx vlen pl narg c i d hc k0 hk0 hn0 tl (by
      rw [htl]
      split_ifs
      · exact Or.inl rfl
      · exact Or.inr ⟨_, rfl⟩) f t s
      ((c.more.map fun g => (if g.1 then ['='] else []) ++ join d g.2) ++ rest)
      (by rw [h1]; simp [Cmd.render, htl]) h2 h3 hlong hlast hhelp h4
  -- the values attached to the key
  have hatt : ∃ t1 : T, t1.cur.length ≤ t1.ix ∧ t1.pud = false ∧ t1.pasd = false ∧
      t1.rest = (c.more.map fun g => (if g.1 then ['='] else []) ++ join d g.2) ++ rest ∧
      ∀ f, run ks vlen pl narg (f + c.att.length + 1) t s = run ks vlen pl narg f t1
        { s with val := assign vlen keys (assign vlen keys s.val i [k0.2]) i c.att, pos := i,
                 posc := i + c.att.length } := by
    cases ha : c.att with
    | nil =>
      refine ⟨{ pasd := false, pud := false, cur := '-' :: c.name ++ tl, ix := c.name.length + 2, rest := _ },
        ?_, rfl, rfl, rfl, fun f => ?_⟩
      · simp [htl, ha]
      · simp only [List.length_nil, Nat.add_zero]
        rw [hkey f]
        rfl
    | cons v vs =>
      refine ⟨{ pasd := false, pud := false, cur := '-' :: c.name ++ tl, ix := ('-' :: c.name ++ tl).length + 1, rest := _ },
        Nat.le_succ _, rfl, rfl, rfl, fun f => ?_⟩
      rw [hkey]
      exact att_ok keys ks hx vlen pl narg k0 d hd v vs f
        { pasd := false, pud := false, cur := '-' :: c.name ++ tl, ix := c.name.length + 2,
          rest := (c.more.map fun g => (if g.1 then ['='] else []) ++ join d g.2) ++ rest }
        { s with val := assign vlen keys s.val i [k0.2], pos := i, posc := i } ('-' :: c.name)
        (by simp [htl, ha, join]) (by simp) (by simp) rfl rfl hk0
        (fun w hw => hplatt w (by rw [ha]; exact hw))
        (fun j hj => hroom j (by
          have : (v :: vs).length = c.att.length := by rw [ha]
          simp only [Cmd.vals, List.length_append]
          omega))
  obtain ⟨t1, u1, u2, u3, u4, u5⟩ := hatt
  by_cases hm : c.more = []
  · refine ⟨c.att.length + 1, t1, i + c.att.length, u1, u2, u3, by simpa [hm] using u4, hi, fun f => ?_⟩
    rw [← Nat.add_assoc, u5]
    simp [Cmd.effect, Cmd.vals, hm, hk0]
  · have hn1 : narg ≠ 1 := fun e => hm (h5 e).1
    obtain ⟨cost, t', e1, e2, e3, e4, e5⟩ := more_ok keys ks hx vlen pl narg hn1 k0 d hd rest c.more t1
      { s with val := assign vlen keys (assign vlen keys s.val i [k0.2]) i c.att, pos := i, posc := i + c.att.length }
      u4 u1 u2 u3 hk0 hc.more
      (fun g hg v hv => hc.plain v (List.mem_append_right _ (List.mem_flatMap.2 ⟨g, hg, hv⟩))) hc.minus
      (fun g hg => hc.long _ (by
        simp only [Cmd.render, List.mem_cons, List.mem_map]
        exact Or.inr ⟨g, hg, rfl⟩))
      (fun j hj => by
        obtain ⟨k, a, b⟩ := hroom (c.att.length + j) (by simp only [Cmd.vals, List.length_append]; omega)
        exact ⟨k, by rw [← a]; congr 1; simp only; omega, b⟩)
    refine ⟨cost + (c.att.length + 1), t', i + c.att.length + (c.more.flatMap (·.2)).length, e1, e2, e3, e4, hi,
      fun f => ?_⟩
    rw [← Nat.add_assoc, ← Nat.add_assoc, u5, e5]
    simp only [Cmd.effect, Cmd.vals, hk0, Option.map_some, Option.getD_some, assign_append]

theorem cmds_ok (keys : List (Str × Str)) (ks : List Key) (hx : Ctx keys ks) (vlen : Nat) (pl : Bool) (narg : Nat)
    (rest : List Str) (cs : List (Cmd × Nat × Char)) :
    ∀ (t : T) (s : S), (∀ c ∈ cs, Fits keys c.1 c.2.1 c.2.2) →
    t.rest = cs.flatMap (fun c => c.1.render c.2.2) ++ rest → t.cur.length ≤ t.ix → t.pud = false →
    s.pos < keys.length → (narg = 1 → ∀ c ∈ cs, c.1.more = [] ∧ ∀ a ∈ c.1.render c.2.2, help a = false) →
    ∃ (cost : Nat) (t' : T) (p pc : Nat), t'.cur.length ≤ t'.ix ∧ t'.pud = false ∧ t'.rest = rest ∧
      p < keys.length ∧
      ∀ f, run ks vlen pl narg (f + cost) t s = run ks vlen pl narg f t'
        { s with val := cs.foldl (Cmd.effect vlen keys) s.val, pos := p, posc := pc } := by
  induction cs with
  | nil =>
    intro t s _ h1 h2 h3 h4 _
    exact ⟨0, t, s.pos, s.posc, h2, h3, by simpa using h1, h4, fun f => rfl⟩
  | cons c cs ih =>
    intro t s hc h1 h2 h3 h4 h5
    obtain ⟨cost, t1, pc, e1, e2, e3, e4, e5, e6⟩ := cmd_ok keys ks hx vlen pl narg c.1 c.2.1 c.2.2 (hc c (by simp))
      (cs.flatMap (fun c => c.1.render c.2.2) ++ rest) t s (by rw [h1]; simp) h2 h3 h4
      (fun e => h5 e c (by simp))
    obtain ⟨cost', t', p, pc', g1, g2, g3, g4, g5⟩ := ih t1
      { s with val := Cmd.effect vlen keys s.val (c.1, c.2.1, c.2.2), pos := c.2.1, posc := pc }
      (fun c' h' => hc c' (by simp [h'])) e4 e1 e2 e5 (fun e c' h' => h5 e c' (by simp [h']))
    refine ⟨cost' + cost, t', p, pc', g1, g2, g3, g4, fun f => ?_⟩
    rw [← Nat.add_assoc, e6, g5]
    rfl

/-- The first key called `-` is key `m`, and `count` positional arguments fit. -/
structure Positional (keys : List (Str × Str)) (m count : Nat) : Prop where
  first : ∀ j < m, ∀ k, keys[j]? = some k → rtrim (shown k.1) ≠ ['-']
  room : ∀ t < max 1 count, ∃ k, keys[m + t]? = some k ∧ shown k.1 = ['-']

theorem positional_ok (keys : List (Str × Str)) (ks : List Key) (hx : Ctx keys ks) (vlen : Nat) (pl : Bool) (narg : Nat)
    (k0 : Str × Str) (rest : List Str) (ps : List Str) :
    ∀ (t : T) (s : S), t.rest = ps ++ rest → t.cur.length ≤ t.ix → (t.pud = true ∨ t.pasd = true) →
    (∀ p ∈ ps, (t.pud = false → p.head? ≠ some '-') ∧ p.getLast? ≠ some ' ' ∧ p.length ≤ 8192 ∧
      (narg = 1 → help p = false)) →
    keys[s.posmoin]? = some k0 → s.pos < keys.length →
    (∀ j < ps.length, ∃ k, keys[s.posmoinc + j]? = some k ∧ shown k0.1 = shown k.1) →
    ∃ t' : T, t'.cur.length ≤ t'.ix ∧ t'.pud = t.pud ∧ t'.pasd = t.pasd ∧ t'.rest = rest ∧
      ∀ f, run ks vlen pl narg (f + ps.length) t s = run ks vlen pl narg f t'
        { s with val := assign vlen keys s.val s.posmoinc ps, posmoinc := s.posmoinc + ps.length,
                 interne := s.interne + ps.length } := by
  induction ps with
  | nil =>
    intro t s h1 h2 _ _ _ _ _
    exact ⟨t, h2, rfl, rfl, by simpa using h1, fun f => by simp [assign]⟩
  | cons p ps ih =>
    intro t s h1 h2 h3 h4 h5 h6 h7
    obtain ⟨b1, b2, b3, b4⟩ := h4 p (by simp)
    obtain ⟨kp, p1, -⟩ := hx.key s.pos _ (List.getElem?_eq_getElem h6)
    obtain ⟨k, a1, a2, -⟩ := hx.key _ _ h5
    obtain ⟨kc0, c1, c2⟩ := h7 0 (by simp)
    simp only [Nat.add_zero] at c1
    obtain ⟨kc, d1, d2, -, d3, -⟩ := hx.key _ _ c1
    have hcur : rtrim (p.take 8192) = p := by rw [List.take_of_length_le b3, rtrim_id _ b2]
    have hh : (True ∧ narg = 1 ∧ help p = true) = False := by
      simp only [true_and, eq_iff_iff, iff_false]
      rintro ⟨e1, e2⟩
      rw [b4 e1] at e2
      cases e2
    have hk : (True ∧ p[0]? = some '-' ∧ t.pud = false) = False := by
      simp only [true_and, eq_iff_iff, iff_false]
      rintro ⟨e1, e2⟩
      rw [← List.head?_eq_getElem?] at e1
      exact b1 e2 e1
    have hq : qqqobm narg kp.typ t = (3, p, { t with cur := p, ix := p.length, rest := ps ++ rest }) := by
      simp only [qqqobm, fetch, if_pos h2, h1, List.cons_append, hcur, hh, hk, if_false]
      rw [if_pos h3]
    obtain ⟨t', e1, e2, e3, e4, e5⟩ := ih { t with cur := p, ix := p.length, rest := ps ++ rest }
      { s with val := assign vlen keys s.val s.posmoinc [p], posmoinc := s.posmoinc + 1, interne := s.interne + 1 }
      rfl (Nat.le_refl _) h3 (fun q hq => h4 q (by simp [hq])) h5 h6
      (fun j hj => by
        have := h7 (j + 1) (by simp; omega)
        rwa [show s.posmoinc + (j + 1) = s.posmoinc + 1 + j by omega] at this)
    refine ⟨t', e1, e2, e3, e4, fun f => ?_⟩
    rw [List.length_cons, ← Nat.add_assoc, run]
    simp only [p1, hq, (by decide : ¬ (3 = 0)), (by decide : ¬ (3 = 1)), (by decide : ¬ (3 = 2)), if_false, if_true, step,
      a1, d1, a2, d2, c2, bind, Except.bind, d3]
    have hs : s.val.set s.posmoinc (conv vlen kc0.1 p) = assign vlen keys s.val s.posmoinc [p] := by
      simp [assign, c1]
    rw [hs, e5]
    simp only
    rw [← assign_cons, show s.posmoinc + 1 + ps.length = s.posmoinc + (ps.length + 1) by omega,
      show s.interne + 1 + ps.length = s.interne + (ps.length + 1) by omega]

/-- `--` is taken as a key called `-`. -/
theorem dashes_ok (keys : List (Str × Str)) (ks : List Key) (hx : Ctx keys ks) (vlen : Nat) (pl : Bool) (narg : Nat)
    (m : Nat) (hm : Positional keys m 0) (k0 : Str × Str) (hk0 : keys[m]? = some k0) (rest : List Str)
    (t : T) (s : S) (h1 : t.rest = ['-', '-'] :: rest) (h2 : t.cur.length ≤ t.ix) (h3 : t.pud = false)
    (h4 : s.pos < keys.length) (f : Nat) :
    run ks vlen pl narg (f + 1) t s = run ks vlen pl narg f
      { pasd := false, pud := true, cur := ['-', '-'], ix := 3, rest := rest }
      { s with val := assign vlen keys s.val m [k0.2], pos := m, posc := m } := by
  obtain ⟨kp, p1, -⟩ := hx.key s.pos _ (List.getElem?_eq_getElem h4)
  obtain ⟨k, a1, a2, a3, a4, a5⟩ := hx.key m k0 hk0
  have hshown : shown k0.1 = ['-'] := by
    obtain ⟨k', b1, b2⟩ := hm.room 0 (by simp)
    rw [Nat.add_zero, hk0] at b1
    cases b1
    exact b2
  have hq : qqqobm narg kp.typ t = (1, ['-'],
      { pasd := false, pud := true, cur := ['-', '-'], ix := 3, rest := rest }) := by
    have hcur : rtrim ((['-', '-'] : Str).take 8192) = ['-', '-'] := by decide
    have hhelp : help ['-', '-'] = false := by decide
    have hext : extract (if kp.typ = 2 then '=' else ':') 2 ['-', '-'] = (['-'], 3) := by
      split_ifs <;> decide
    simp only [qqqobm, fetch, if_pos h2, h1, hcur, hhelp, Bool.false_eq_true, and_false, if_false, h3, hext]
    rfl
  have hfind : ks.findIdx? (fun k => rtrim (upper ['-']) = rtrim k.name) = some m := by
    have hi : m < ks.length := by
      rw [hx.len]
      exact (List.getElem?_eq_some_iff.1 hk0).1
    have hup : rtrim (upper ['-']) = ['-'] := by decide
    have hup2 : rtrim ['-'] = ['-'] := by decide
    rw [List.findIdx?_eq_some_iff_getElem]
    refine ⟨hi, ?_, ?_⟩
    · rw [List.getElem?_eq_getElem hi] at a1
      cases a1
      simp [hup, a2, hshown, hup2]
    · intro j hj
      have hjl : j < keys.length := by
        rw [← hx.len]
        omega
      obtain ⟨kj, b1, b2, -⟩ := hx.key j _ (List.getElem?_eq_getElem hjl)
      rw [List.getElem?_eq_getElem (by omega)] at b1
      cases b1
      have := hm.first j hj _ (List.getElem?_eq_getElem hjl)
      rw [hup, b2]
      simp only [decide_eq_true_eq]
      exact fun e => this e.symm
  rw [run]
  simp only [p1, hq, (by decide : ¬ (1 = 0)), if_false, step, if_true, hfind, a1, a3, bind, Except.bind, assign, hk0,
    Option.map_some, Option.getD_some, a4]

theorem run_end (keys : List (Str × Str)) (ks : List Key) (hx : Ctx keys ks) (vlen : Nat) (pl : Bool) (narg : Nat)
    (t : T) (s : S) (h1 : t.rest = []) (h2 : t.cur.length ≤ t.ix) (h4 : s.pos < keys.length) (f : Nat) :
    run ks vlen pl narg (f + 1) t s = .ok s := by
  obtain ⟨kp, p1, -⟩ := hx.key s.pos _ (List.getElem?_eq_getElem h4)
  have hq : qqqobm narg kp.typ t = (0, [], t) := by
    simp only [qqqobm, fetch, if_pos h2, h1]
  rw [run]
  simp only [p1, hq, if_true]

theorem find_dash (keys : List (Str × Str)) (ks : List Key) (hx : Ctx keys ks) (m count : Nat)
    (hm : Positional keys m count) : (ks.findIdx? (fun k => k.name = ['-'])).getD 0 = m := by
  obtain ⟨k0, hk0, hn0⟩ := hm.room 0 (by omega)
  simp only [Nat.add_zero] at hk0
  obtain ⟨k, a1, a2, -⟩ := hx.key m k0 hk0
  have hi : m < ks.length := by
    rw [hx.len]
    exact (List.getElem?_eq_some_iff.1 hk0).1
  have : ks.findIdx? (fun k => k.name = ['-']) = some m := by
    rw [List.findIdx?_eq_some_iff_getElem]
    refine ⟨hi, ?_, ?_⟩
    · rw [List.getElem?_eq_getElem hi] at a1
      cases a1
      simp [a2, hn0]
    · intro j hj
      have hjl : j < keys.length := by
        rw [← hx.len]
        omega
      obtain ⟨kj, b1, b2, -⟩ := hx.key j _ (List.getElem?_eq_getElem hjl)
      rw [List.getElem?_eq_getElem (by omega)] at b1
      cases b1
      have := hm.first j hj _ (List.getElem?_eq_getElem hjl)
      simp only [b2, decide_eq_true_eq]
      intro e
      rw [e] at this
      exact this (by decide)
  rw [this]
  rfl

/-- A single argument does not ask for help. -/
def NotHelp (argv : List Str) : Prop := argv.length = 1 → ∀ a ∈ argv, help a = false

theorem more_of_length (cs : List (Cmd × Nat × Char)) (xs ys : List Str)
    (h : (xs ++ (cs.flatMap (fun c => c.1.render c.2.2) ++ ys)).length = 1) : ∀ c ∈ cs, c.1.more = [] := by
  intro c hc
  have h1 : (c.1.render c.2.2).length ≤ (cs.flatMap fun c => c.1.render c.2.2).length := by
    obtain ⟨a, b, rfl⟩ := List.append_of_mem hc
    simp only [List.flatMap_append, List.flatMap_cons, List.length_append]
    omega
  have h2 : (c.1.render c.2.2).length = 1 + c.1.more.length := by simp [Cmd.render, Nat.add_comm]
  simp only [List.length_append] at h
  have : c.1.more.length = 0 := by omega
  exact List.length_eq_zero_iff.1 this

/-- **C120** (without `--`, see `C120_dashes_witness`; positional arguments only with keys called `-`, see
`C120_first_witness`) — A command line made of positional arguments and keys with their values, where the
values of every key fit in the keys of the same name, sets exactly what it says: the values go to the keys in
order, however they are attached or separated, a key without value takes its `def`, later keys win, and all
others keep their value; values are converted as the name of their key asks. -/
theorem C120_partial (vlen : Nat) (abort : Bool) (keys : List (Str × Str)) (val : List Str) (ii : Int) (m : Nat)
    (ps : List Str) (cs : List (Cmd × Nat × Char))
    (hn : 0 < keys.length ∧ keys.length ≤ 1024) (hname : ∀ k ∈ keys, k.1 ≠ [] ∧ k.1.length ≤ 50)
    (hcs : ∀ c ∈ cs, Fits keys c.1 c.2.1 c.2.2)
    (hpos : ps ≠ [] → Positional keys m ps.length)
    (hps : ∀ p ∈ ps, p.head? ≠ some '-' ∧ p.getLast? ≠ some ' ' ∧ p.length ≤ 8192)
    (hh : NotHelp (ps ++ cs.flatMap (fun c => c.1.render c.2.2))) :
    ∃ f0, ∀ f ≥ f0, ccard f vlen abort keys val ii (ps ++ cs.flatMap (fun c => c.1.render c.2.2)) =
      .ok (cs.foldl (Cmd.effect vlen keys) (assign vlen keys val m ps), if 0 < ii then (ps.length : Int) else ii) := by
  obtain ⟨ks, hks, hl, hk⟩ := mkKeys_spec keys hname
  have hx : Ctx keys ks := ⟨hl, hk⟩
  set argv := ps ++ cs.flatMap (fun c => c.1.render c.2.2) with hargv
  set pl : Bool := abort || decide (ii.natAbs = 111) with hpl
  set m' := (ks.findIdx? (fun k => k.name = ['-'])).getD 0 with hm'
  have hlead : ∃ t' : T, t'.cur.length ≤ t'.ix ∧ t'.pud = false ∧ t'.rest = cs.flatMap (fun c => c.1.render c.2.2) ∧
      ∃ pc, ∀ f, run ks vlen pl argv.length (f + ps.length) { rest := argv } { val := val, posmoin := m', posmoinc := m' } =
        run ks vlen pl argv.length f t'
          { val := assign vlen keys val m ps, posmoin := m', posmoinc := pc, interne := ps.length } := by
    by_cases hp : ps = []
    · refine ⟨{ rest := argv }, by simp, rfl, by simp [hargv, hp], m', fun f => by simp [hp, assign]⟩
    · have hP := hpos hp
      have hmm : m' = m := find_dash keys ks hx m _ hP
      obtain ⟨k0, hk0, hn0⟩ := hP.room 0 (by omega)
      simp only [Nat.add_zero] at hk0
      obtain ⟨t', e1, e2, -, e3, e4⟩ := positional_ok keys ks hx vlen pl argv.length k0
        (cs.flatMap (fun c => c.1.render c.2.2)) ps { rest := argv } { val := val, posmoin := m', posmoinc := m' } rfl
        (by simp) (Or.inr rfl)
        (fun p hp' => ⟨fun _ => (hps p hp').1, (hps p hp').2.1, (hps p hp').2.2, fun e => hh e p (by simp [hargv, hp'])⟩)
        (by simpa [hmm] using hk0) hn.1
        (fun j hj => by
          obtain ⟨k, a, b⟩ := hP.room j (by omega)
          exact ⟨k, by simpa [hmm] using a, by rw [hn0, b]⟩)
      refine ⟨t', e1, e2, e3, m' + ps.length, fun f => ?_⟩
      rw [e4 f]
      simp [hmm]
  obtain ⟨t1, u1, u2, u3, pc, u4⟩ := hlead
  obtain ⟨cost, t2, p, pc', v1, v2, v3, v4, v5⟩ := cmds_ok keys ks hx vlen pl argv.length [] cs t1
    { val := assign vlen keys val m ps, posmoin := m', posmoinc := pc, interne := ps.length } hcs
    (by simpa using u3) u1 u2 hn.1
    (fun e c hc => ⟨more_of_length cs ps [] (by simpa [hargv] using e) c hc, fun a ha => hh e a (by
      rw [hargv]
      exact List.mem_append_right _ (List.mem_flatMap.2 ⟨c, hc, ha⟩))⟩)
  refine ⟨1 + cost + ps.length, fun f hf => ?_⟩
  obtain ⟨g, rfl⟩ : ∃ g, f = g + 1 + cost + ps.length := ⟨f - (1 + cost + ps.length), by omega⟩
  have hrun := u4 (g + 1 + cost)
  rw [v5, run_end keys ks hx vlen pl argv.length t2 _ v3 v1 v4] at hrun
  simp only [ccard, if_pos hn.2, hks]
  simp only [← hm', ← hpl, hrun, bind, Except.bind, pure, Except.pure]

/-- **C120** — What happens with `--`: it also counts as the first key called `-`, which takes its `def`; the
first positional argument, if there was one before, is lost. -/
theorem C120_dashes (vlen : Nat) (abort : Bool) (keys : List (Str × Str)) (val : List Str) (ii : Int) (m : Nat)
    (ps qs : List Str) (cs : List (Cmd × Nat × Char)) (k0 : Str × Str) (hk0 : keys[m]? = some k0)
    (hn : 0 < keys.length ∧ keys.length ≤ 1024) (hname : ∀ k ∈ keys, k.1 ≠ [] ∧ k.1.length ≤ 50)
    (hcs : ∀ c ∈ cs, Fits keys c.1 c.2.1 c.2.2)
    (hpos : Positional keys m (ps.length + qs.length))
    (hps : ∀ p ∈ ps, p.head? ≠ some '-' ∧ p.getLast? ≠ some ' ' ∧ p.length ≤ 8192)
    (hqs : ∀ p ∈ qs, p.getLast? ≠ some ' ' ∧ p.length ≤ 8192) :
    ∃ f0, ∀ f ≥ f0, ccard f vlen abort keys val ii
        (ps ++ (cs.flatMap (fun c => c.1.render c.2.2) ++ ['-', '-'] :: qs)) =
      .ok (assign vlen keys (assign vlen keys (cs.foldl (Cmd.effect vlen keys) (assign vlen keys val m ps)) m [k0.2])
          (m + ps.length) qs, if 0 < ii then ((ps.length + qs.length : Nat) : Int) else ii) := by
  obtain ⟨ks, hks, hl, hk⟩ := mkKeys_spec keys hname
  have hx : Ctx keys ks := ⟨hl, hk⟩
  set argv := ps ++ (cs.flatMap (fun c => c.1.render c.2.2) ++ ['-', '-'] :: qs) with hargv
  set pl : Bool := abort || decide (ii.natAbs = 111) with hpl
  have hmm := find_dash keys ks hx m _ hpos
  have hhelp : argv.length = 1 → ps = [] ∧ qs = [] ∧ cs.flatMap (fun c => c.1.render c.2.2) = [] := by
    intro e
    simp only [hargv, List.length_append, List.length_cons] at e
    refine ⟨List.length_eq_zero_iff.1 (by omega), List.length_eq_zero_iff.1 (by omega), List.length_eq_zero_iff.1 (by omega)⟩
  have hm0 : shown k0.1 = ['-'] := by
    obtain ⟨k', b1, b2⟩ := hpos.room 0 (by omega)
    rw [Nat.add_zero, hk0] at b1
    cases b1
    exact b2
  obtain ⟨t1, u1, u2, -, u3, u4⟩ := positional_ok keys ks hx vlen pl argv.length k0
    (cs.flatMap (fun c => c.1.render c.2.2) ++ ['-', '-'] :: qs) ps { rest := argv }
    { val := val, posmoin := m, posmoinc := m } rfl (by simp) (Or.inr rfl)
    (fun p hp' => ⟨fun _ => (hps p hp').1, (hps p hp').2.1, (hps p hp').2.2, fun e => by
      rw [(hhelp e).1] at hp'
      cases hp'⟩)
    hk0 hn.1
    (fun j hj => by
      obtain ⟨k, a, b⟩ := hpos.room j (by omega)
      exact ⟨k, a, by rw [hm0, b]⟩)
  obtain ⟨cost, t2, p, pc', v1, v2, v3, v4, v5⟩ := cmds_ok keys ks hx vlen pl argv.length (['-', '-'] :: qs) cs t1
    { val := assign vlen keys val m ps, posmoin := m, posmoinc := m + ps.length, interne := ps.length } hcs
    u3 u1 u2 hn.1
    (fun e c hc => ⟨more_of_length cs ps (['-', '-'] :: qs) e c hc, fun a ha => by
      have : a ∈ cs.flatMap (fun c => c.1.render c.2.2) := List.mem_flatMap.2 ⟨c, hc, ha⟩
      rw [(hhelp e).2.2] at this
      cases this⟩)
  have hm1 : Positional keys m 0 := ⟨hpos.first, fun t ht => hpos.room t (by omega)⟩
  have hd := dashes_ok keys ks hx vlen pl argv.length m hm1 k0 hk0 qs t2
    { val := cs.foldl (Cmd.effect vlen keys) (assign vlen keys val m ps), pos := p, posc := pc', posmoin := m,
      posmoinc := m + ps.length, interne := ps.length } v3 v1 v2 v4
  have hmlt : m < keys.length := (List.getElem?_eq_some_iff.1 hk0).1
  obtain ⟨t3, w1, -, -, w3, w4⟩ := positional_ok keys ks hx vlen pl argv.length k0 [] qs
    { pasd := false, pud := true, cur := ['-', '-'], ix := 3, rest := qs }
    { val := assign vlen keys (cs.foldl (Cmd.effect vlen keys) (assign vlen keys val m ps)) m [k0.2], pos := m, posc := m,
      posmoin := m, posmoinc := m + ps.length, interne := ps.length } (by simp) (by simp) (Or.inl rfl)
    (fun q hq => ⟨fun e => (by cases e), (hqs q hq).1, (hqs q hq).2, fun e => by
      rw [(hhelp e).2.1] at hq
      cases hq⟩) hk0 hmlt
    (fun j hj => by
      obtain ⟨k, a, b⟩ := hpos.room (ps.length + j) (by omega)
      exact ⟨k, by rw [← a]; congr 1; simp only; omega, by rw [hm0, b]⟩)
  refine ⟨1 + qs.length + 1 + cost + ps.length, fun f hf => ?_⟩
  obtain ⟨g, rfl⟩ : ∃ g, f = g + 1 + qs.length + 1 + cost + ps.length :=
    ⟨f - (1 + qs.length + 1 + cost + ps.length), by omega⟩
  have hrun := u4 (g + 1 + qs.length + 1 + cost)
  simp only [Nat.zero_add] at hrun
  rw [v5, hd, w4, run_end keys ks hx vlen pl argv.length t3 _ w3 w1 hmlt] at hrun
  simp only [ccard, if_pos hn.2, hks]
  simp only [hmm, ← hpl, hrun, bind, Except.bind, pure, Except.pure]

/-- **C120** — The argument before `--` is lost: of `a -- b` only `b` is seen. -/
theorem C120_dashes_witness :
    ccard 10 8 false [("-".toList, "D".toList), ("-".toList, "D".toList)] ["".toList, "".toList] 1
      ["a".toList, "--".toList, "b".toList] = .ok (["D".toList, "B".toList], 2) := by decide +kernel

/-- **C120** — Without any key called `-` an argument that belongs to no key is given to the first key of the
table, without a message. -/
theorem C120_first_witness (vlen : Nat) (abort : Bool) (keys : List (Str × Str)) (val : List Str) (ii : Int)
    (k0 : Str × Str) (p : Str) (hk0 : keys[0]? = some k0) (hn : keys.length ≤ 1024)
    (hname : ∀ k ∈ keys, k.1 ≠ [] ∧ k.1.length ≤ 50) (hno : ∀ k ∈ keys, shown k.1 ≠ ['-'])
    (hp : p.head? ≠ some '-' ∧ p.getLast? ≠ some ' ' ∧ p.length ≤ 8192 ∧ help p = false) :
    ∃ f0, ∀ f ≥ f0, ccard f vlen abort keys val ii [p] =
      .ok (val.set 0 (conv vlen k0.1 p), if 0 < ii then 1 else ii) := by
  obtain ⟨ks, hks, hl, hk⟩ := mkKeys_spec keys hname
  have hx : Ctx keys ks := ⟨hl, hk⟩
  have h0 : 0 < keys.length := (List.getElem?_eq_some_iff.1 hk0).1
  have hnone : ks.findIdx? (fun k => k.name = ['-']) = none := by
    rw [List.findIdx?_eq_none_iff]
    intro k hk'
    obtain ⟨j, hj, rfl⟩ := List.getElem_of_mem hk'
    have hjl : j < keys.length := by rw [← hl]; exact hj
    obtain ⟨kj, b1, b2, -⟩ := hk j _ (List.getElem?_eq_getElem hjl)
    rw [List.getElem?_eq_getElem hj] at b1
    cases b1
    have := hno _ (List.getElem_mem hjl)
    simp [b2, this]
  obtain ⟨t1, u1, -, -, u3, u4⟩ := positional_ok keys ks hx vlen (abort || decide (ii.natAbs = 111)) 1 k0 [] [p]
    { rest := [p] } { val := val, posmoin := 0, posmoinc := 0 } rfl (by simp) (Or.inr rfl)
    (fun q hq => by
      simp only [List.mem_singleton] at hq
      subst hq
      exact ⟨fun _ => hp.1, hp.2.1, hp.2.2.1, fun _ => hp.2.2.2⟩) hk0 h0
    (fun j hj => by
      obtain rfl : j = 0 := by simpa using hj
      exact ⟨k0, hk0, rfl⟩)
  refine ⟨2, fun f hf => ?_⟩
  obtain ⟨g, rfl⟩ : ∃ g, f = g + 1 + 1 := ⟨f - 2, by omega⟩
  have hrun := u4 (g + 1)
  rw [run_end keys ks hx _ _ _ t1 _ u3 u1 h0] at hrun
  simp only [List.length_singleton, Nat.zero_add] at hrun
  simp only [ccard, if_pos hn, hks, hnone, Option.getD_none, List.length_singleton, hrun, bind, Except.bind, pure,
    Except.pure, assign, hk0, Option.map_some, Option.getD_some, Nat.cast_one]

/-- A command line with every form, to show that `C120_partial` applies. -/
example :
    ccard 20 8 false [("-.".toList, "".toList), ("nk".toList, "d".toList), ("nk".toList, "d".toList),
        ("f_".toList, "YES".toList), ("t:".toList, "".toList)] ["".toList, "v".toList, "w".toList, "No".toList, "".toList] 1
      ["x".toList, "-NK=a:b".toList, "-f".toList, "-t".toList, "=12:30".toList] =
    .ok (["x".toList, "A".toList, "B".toList, "yes".toList, "12:30".toList], 1) := by decide +kernel

/-- The hypotheses of `C120_partial` for that kind of line. -/
example : Fits [("nk".toList, "d".toList), ("nk".toList, "d".toList)]
    ⟨"nK".toList, ["1".toList], [(true, ["-2".toList])]⟩ 0 ':' := by
  refine ⟨by decide, by decide, by decide, by decide, by decide, ⟨_, rfl, by decide, by decide⟩, by omega, ?_, by decide,
    by decide, ?_, ?_⟩
  · intro v hv
    have : v = "1".toList ∨ v = "-2".toList := by simpa [Cmd.vals] using hv
    rcases this with rfl | rfl <;> exact ⟨by decide, by decide, by decide, by decide⟩
  · intro t ht
    have : t = 0 ∨ t = 1 := by
      have : t < 2 := ht
      omega
    rcases this with rfl | rfl <;> exact ⟨_, rfl, by decide⟩
  · intro a ha
    have : a = "-nK=1".toList ∨ a = "=-2".toList := by simpa [Cmd.render, join, after] using ha
    rcases this with rfl | rfl <;> simp

/-- Two positional arguments fit here. -/
example : Positional [("a".toList, "".toList), ("-".toList, "".toList), ("-.".toList, "".toList)] 1 2 := by
  refine ⟨?_, ?_⟩
  · intro j hj k hk
    obtain rfl : j = 0 := by omega
    simp only [List.getElem?_cons_zero, Option.some.injEq] at hk
    subst hk
    decide
  · intro t ht
    have : t = 0 ∨ t = 1 := by
      have : t < 2 := by simpa using ht
      omega
    rcases this with rfl | rfl <;> exact ⟨_, rfl, by decide⟩

end Verif.FCard
