import Verif.Mgi
import Mathlib.Data.List.TakeWhile

/-!
# C82, C83: the table of time-outs and the table of channels
-/

namespace Verif.Mgi

/-! ## C82: time-outs -/

/-- The channel has an entry among those counted. -/
def Registered (s : Timeouts) (c : Int) : Prop := ∃ i : Nat, i < s.ichan ∧ ∃ t, s.table[i]? = some ⟨c, t⟩

private theorem split_first (l : List Entry) (n : Nat) (c : Int)
    (h : ∃ i : Nat, i < n ∧ ∃ t, l[i]? = some ⟨c, t⟩) :
    ∃ A e B, l = A ++ e :: B ∧ e.chan = c ∧ (∀ x ∈ A, x.chan ≠ c) ∧ A.length < n ∧
      (l.take n).findIdx? (fun e => e.chan == c) = some A.length := by
  induction l generalizing n with
  | nil => obtain ⟨i, _, t, h⟩ := h; simp at h
  | cons a l ih =>
    obtain ⟨i, hi, t, h⟩ := h
    cases n with
    | zero => omega
    | succ n =>
      by_cases ha : a.chan = c
      · exact ⟨[], a, l, rfl, ha, by simp, by simp, by simp [List.findIdx?_cons, ha]⟩
      · cases i with
        | zero =>
          simp only [List.getElem?_cons_zero, Option.some.injEq] at h
          rw [h] at ha
          exact absurd rfl ha
        | succ i =>
          obtain ⟨A, e, B, h1, h2, h3, h4, h5⟩ := ih n ⟨i, by omega, t, by simpa using h⟩
          refine ⟨a :: A, e, B, by rw [h1]; rfl, h2, ?_, by simp; omega, ?_⟩
          · intro x hx
            rcases List.mem_cons.1 hx with rfl | hx
            · exact ha
            · exact h3 x hx
          · simp [List.findIdx?_cons, ha, h5]

private theorem find_none (A : List Entry) (c : Int) (h : ∀ x ∈ A, x.chan ≠ c) :
    A.find? (fun e => e.chan == c) = none := by
  rw [List.find?_eq_none]
  intro x hx
  simpa using h x hx

/-- C82.  For a registered channel, `set_client_timeout` makes `get_timeout_value` return the
value set and `get_client_timeout` return it when it is more than 3 and its opposite otherwise;
the time-outs of all the other channels, and the set of registered channels, are unchanged. -/
theorem C82_set_get (s : Timeouts) (c t : Int) (hc : Registered s c) :
    ∃ s', setClient s c t = some s' ∧ getValue s' c = t ∧
      (3 < t → getClient s' c = t) ∧ (t ≤ 3 → getClient s' c = -t) ∧
      (∀ d, d ≠ c → getClient s' d = getClient s d ∧ getValue s' d = getValue s d) ∧
      (∀ d, Registered s' d ↔ Registered s d) := by
  obtain ⟨A, e, B, h1, h2, h3, h4, h5⟩ := split_first s.table s.ichan c hc
  have hset : s.table.set A.length ⟨c, t⟩ = A ++ ⟨c, t⟩ :: B := by rw [h1]; simp
  have hfind : (A ++ (⟨c, t⟩ : Entry) :: B).find? (fun e => e.chan == c) = some ⟨c, t⟩ := by
    simp [List.find?_append, find_none A c h3]
  refine ⟨⟨s.table.set A.length ⟨c, t⟩, s.ichan⟩, ?_, ?_, ?_, ?_, ?_, ?_⟩
  · simp only [setClient, h5]
  · simp only [getValue, hset, hfind]
  · intro ht; simp only [getClient, hset, hfind, if_pos ht]
  · intro ht; simp only [getClient, hset, hfind, if_neg (show ¬ t > 3 by omega)]
  · intro d hd
    have hd' : ¬ (c == d) = true := by simpa using fun h => hd h.symm
    have he' : ¬ (e.chan == d) = true := by simpa [h2] using fun h => hd h.symm
    have : (A ++ (⟨c, t⟩ : Entry) :: B).find? (fun e => e.chan == d) =
        (A ++ e :: B).find? (fun e => e.chan == d) := by
      simp only [List.find?_append, List.find?_cons, hd', he']
    constructor
    · simp only [getClient, hset, this, ← h1]
    · simp only [getValue, hset, this, ← h1]
  · intro d
    constructor
    · rintro ⟨i, hi, u, h⟩
      dsimp only at h hi
      rw [hset] at h
      by_cases hx : i = A.length
      · subst hx
        simp only [List.getElem?_append_right (Nat.le_refl _), Nat.sub_self,
          List.getElem?_cons_zero, Option.some.injEq, Entry.mk.injEq] at h
        exact ⟨A.length, hi, e.timeout, by rw [h1]; simp [← h.1, ← h2]⟩
      · refine ⟨i, hi, u, ?_⟩
        rw [h1, ← h]
        rcases Nat.lt_or_gt_of_ne hx with hlt | hgt
        · rw [List.getElem?_append_left hlt, List.getElem?_append_left hlt]
        · rw [List.getElem?_append_right (by omega), List.getElem?_append_right (by omega)]
          obtain ⟨k, hk⟩ : ∃ k, i - A.length = k + 1 := ⟨i - A.length - 1, by omega⟩
          rw [hk]; rfl
    · rintro ⟨i, hi, u, h⟩
      by_cases hx : i = A.length
      · subst hx
        rw [h1] at h
        simp only [List.getElem?_append_right (Nat.le_refl _), Nat.sub_self,
          List.getElem?_cons_zero, Option.some.injEq] at h
        refine ⟨A.length, hi, t, ?_⟩
        dsimp only
        rw [hset]
        rw [h] at h2
        simp [← h2]
      · refine ⟨i, hi, u, ?_⟩
        dsimp only
        rw [hset, ← h, h1]
        rcases Nat.lt_or_gt_of_ne hx with hlt | hgt
        · rw [List.getElem?_append_left hlt, List.getElem?_append_left hlt]
        · rw [List.getElem?_append_right (by omega), List.getElem?_append_right (by omega)]
          obtain ⟨k, hk⟩ : ∃ k, i - A.length = k + 1 := ⟨i - A.length - 1, by omega⟩
          rw [hk]; rfl

/-- C82 (opening a channel).  While the table has room, a channel opened becomes registered, and
the others stay so. -/
theorem C82_open (s : Timeouts) (hl : s.table.length = 24) (hn : s.ichan < 24) (c : Int) :
    ∃ s', initClient s c = some s' ∧ s'.table.length = 24 ∧ Registered s' c ∧
      ∀ d, Registered s d → Registered s' d := by
  refine ⟨⟨s.table.set s.ichan ⟨c, defaultTimeout⟩, s.ichan + 1⟩, ?_, by simpa using hl, ?_, ?_⟩
  · rw [initClient, if_neg (by rw [maxChannels]; omega)]
  · exact ⟨s.ichan, Nat.lt_succ_self _, defaultTimeout, by
      simp only; rw [List.getElem?_set_self (by omega)]⟩
  · rintro d ⟨i, hi, t, h⟩
    exact ⟨i, by simp only; omega, t, by
      simp only; rw [List.getElem?_set_ne (by omega)]; exact h⟩

/-- The hypotheses are met: descriptor 5 opened, then given 60 seconds. -/
example : ∃ s, initClient Timeouts.start 5 = some s ∧ Registered s 5 ∧
    (setClient s 5 60).map (fun s' => (getClient s' 5, getClient s' 6)) = some (60, 180) :=
  ⟨⟨Timeouts.start.table.set 0 ⟨5, 180⟩, 1⟩, by decide, ⟨0, by decide, 180, by decide⟩, by decide⟩

/-- C82 (short time-outs).  The values 1, 2 and 3 come back negative, and are passed to `select`
as a number of seconds. -/
theorem C82_short_witness (s : Timeouts) (c t : Int) (hc : Registered s c) (ht : 1 ≤ t ∧ t ≤ 3) :
    ∃ s', setClient s c t = some s' ∧ getClient s' c < 0 := by
  obtain ⟨s', h1, _, _, h2, _⟩ := C82_set_get s c t hc
  exact ⟨s', h1, by rw [h2 ht.2]; omega⟩

/-- C82 (unused entries).  Descriptor 0, with no entry, is found in the first unused one: its
time-out is 0 and not the default. -/
theorem C82_zero_witness : getClient Timeouts.start 0 = 0 ∧ getClient Timeouts.start 1 = 180 := by
  decide

/-- C82 (unregistered channels).  The time-out of a channel that is not registered is written to
the entry after the last, and lost as soon as another channel is opened. -/
theorem C82_unregistered_witness : ∃ s1 s2,
    setClient Timeouts.start 7 60 = some s1 ∧ getClient s1 7 = 60 ∧
    initClient s1 5 = some s2 ∧ getClient s2 7 = 180 :=
  ⟨⟨Timeouts.start.table.set 0 ⟨7, 60⟩, 0⟩, ⟨Timeouts.start.table.set 0 ⟨5, 180⟩, 1⟩,
    by decide, by decide, by decide, by decide⟩

/-- C82 (descriptor used again).  Opening a second channel with the descriptor of a closed one
does not restore the default. -/
theorem C82_reuse_witness : ∃ s1 s2 s3,
    initClient Timeouts.start 5 = some s1 ∧ setClient s1 5 30 = some s2 ∧
    initClient s2 5 = some s3 ∧ getClient s3 5 = 30 :=
  ⟨⟨Timeouts.start.table.set 0 ⟨5, 180⟩, 1⟩, ⟨Timeouts.start.table.set 0 ⟨5, 30⟩, 1⟩,
    ⟨(Timeouts.start.table.set 0 ⟨5, 30⟩).set 1 ⟨5, 180⟩, 2⟩,
    by decide, by decide, by decide, by decide⟩

/-- C82 (full table).  When 24 channels have been opened, setting the time-out of any other
descriptor stores outside the table. -/
theorem C82_full (s : Timeouts) (hl : s.table.length = 24) (hn : s.ichan = 24) (c t : Int)
    (hc : ¬ Registered s c) : setClient s c t = none := by
  have hf : (s.table.take s.ichan).findIdx? (fun e => e.chan == c) = none := by
    rw [List.findIdx?_eq_none_iff]
    intro x hx
    rw [hn, ← hl, List.take_length] at hx
    obtain ⟨i, hi, hx⟩ := List.mem_iff_getElem.1 hx
    by_cases hxc : x.chan = c
    · exact absurd ⟨i, by omega, x.timeout, by rw [List.getElem?_eq_getElem hi, hx, ← hxc]⟩ hc
    · simpa using hxc
  simp only [setClient, hf]
  rw [if_neg (by omega)]

/-! ## C83: names and channels -/

private theorem copyLoop_blank (mem : List Nat) (charlen fuel i : Nat)
    (a : List Nat) (ha : ∀ x ∈ a, x ≠ 32) (c : Nat) (rest : List Nat)
    (hmem : mem.drop i = a ++ c :: rest) (hfuel : a.length < fuel) (hlen : i + a.length ≤ charlen)
    (hstop : c = 32 ∨ i + a.length = charlen) :
    copyLoop mem charlen fuel i = some (a ++ [c]) := by
  induction a generalizing fuel i with
  | nil =>
    cases fuel with
    | zero => simp at hfuel
    | succ fuel =>
      have hg : mem[i]? = some c := by
        have := congrArg (·[0]?) hmem
        simpa using this
      have hcond : ¬ (c ≠ 32 ∧ i < charlen) := by
        rintro ⟨h1, h2⟩
        rcases hstop with h | h
        · exact h1 h
        · simp at h; omega
      simp only [copyLoop, hg, if_neg hcond, List.nil_append]
  | cons x a ih =>
    cases fuel with
    | zero => simp at hfuel
    | succ fuel =>
      have hg : mem[i]? = some x := by
        have := congrArg (·[0]?) hmem
        simpa using this
      have hd : mem.drop (i + 1) = a ++ c :: rest := by
        have := congrArg List.tail hmem
        rwa [List.tail_drop] at this
      simp only [List.length_cons] at hfuel hlen hstop
      have hx := ha x List.mem_cons_self
      have hi : i < charlen := by omega
      simp only [copyLoop, hg, if_pos (show x ≠ 32 ∧ i < charlen from ⟨hx, hi⟩)]
      rw [ih fuel (i + 1) (fun y hy => ha y (List.mem_cons_of_mem _ hy)) hd (by omega) (by omega)
        (by omega)]
      rfl

/-- C83 (names).  The name kept is what precedes the first blank of the name given, or all of
its `charlen` characters; it fits when `charlen` is less than the size of the array, and ends
with a zero. -/
theorem C83_name (dest name after : List Nat) (hd : name.length < dest.length)
    (h0 : ∀ x ∈ name, x ≠ 0) (ha : after ≠ []) :
    ∃ r, strcopy dest (name ++ after) name.length = some r ∧ r.length = dest.length ∧
      cstr r = name.takeWhile (· ≠ 32) := by
  have key : ∀ (a rest : List Nat) (c : Nat), (∀ x ∈ a, x ≠ 32) → a.length ≤ name.length →
      (c = 32 ∨ a.length = name.length) → name ++ after = a ++ c :: rest →
      a = name.takeWhile (· ≠ 32) → ∃ r, strcopy dest (name ++ after) name.length = some r ∧
        r.length = dest.length ∧ cstr r = name.takeWhile (· ≠ 32) := by
    intro a rest c h1 h2 h3 h4 h5
    have hc := copyLoop_blank (name ++ after) name.length (name.length + 1) 0 a h1 c rest
      (by simpa using h4) (by omega) (by omega) (by omega)
    have hal : (a ++ [c]).length ≤ dest.length := by simp; omega
    refine ⟨(a ++ [c]).dropLast ++ [0] ++ dest.drop (a ++ [c]).length, ?_, ?_, ?_⟩
    · simp only [strcopy, hc, if_pos hal]
    · simp only [List.dropLast_concat, List.length_append, List.length_cons, List.length_nil,
        List.length_drop] at hal ⊢
      omega
    · rw [List.dropLast_concat, ← h5]
      have ha0 : ∀ x ∈ a, x ≠ 0 := by
        intro x hx
        rw [h5] at hx
        exact h0 x ((List.takeWhile_sublist _).subset hx)
      rw [cstr, List.append_assoc, List.takeWhile_append_of_pos (by simpa using ha0)]
      simp
  by_cases hb : ∃ x ∈ name, x = 32
  · -- a blank in the name
    have hsplit : name = name.takeWhile (· ≠ 32) ++ name.dropWhile (· ≠ 32) :=
      (List.takeWhile_append_dropWhile).symm
    cases hdw : name.dropWhile (· ≠ 32) with
    | nil =>
      obtain ⟨x, hx, rfl⟩ := hb
      rw [List.dropWhile_eq_nil_iff] at hdw
      have := hdw 32 hx
      simp at this
    | cons c rest =>
      have hc : c = 32 := by
        have := List.head?_dropWhile_not (fun x : Nat => decide (x ≠ 32)) name
        rw [hdw] at this
        simpa using this
      have hl : (name.takeWhile (· ≠ 32)).length ≤ name.length :=
        (List.takeWhile_sublist _).length_le
      refine key (name.takeWhile (· ≠ 32)) (rest ++ after) c ?_ hl (Or.inl hc) ?_ rfl
      · intro x hx
        have := List.mem_takeWhile_imp hx
        simpa using this
      · conv => lhs; rw [hsplit, hdw]
        simp
  · -- no blank
    cases after with
    | nil => exact absurd rfl ha
    | cons c rest =>
      have hall : name.takeWhile (· ≠ 32) = name := by
        rw [List.takeWhile_eq_self_iff]
        intro x hx
        simpa using fun h => hb ⟨x, hx, h⟩
      exact key name rest c (fun x hx h => hb ⟨x, hx, h⟩) (Nat.le_refl _) (Or.inr rfl) rfl hall.symm

private theorem copyLoop_over (mem : List Nat) (i fuel : Nat) (h32 : ∀ x ∈ mem, x ≠ 32)
    (hi : i + fuel = mem.length + 1) (hf : 0 < fuel) : copyLoop mem mem.length fuel i = none := by
  induction fuel generalizing i with
  | zero => omega
  | succ fuel ih =>
    by_cases hx : i < mem.length
    · have hne : mem[i] ≠ 32 := h32 _ (List.getElem_mem hx)
      simp only [copyLoop, List.getElem?_eq_getElem hx,
        if_pos (show mem[i] ≠ 32 ∧ i < mem.length from ⟨hne, hx⟩)]
      rw [ih (i + 1) (by omega) (by omega)]
      rfl
    · simp only [copyLoop, List.getElem?_eq_none (by omega : mem.length ≤ i)]

/-- C83 (names, one character too far).  For a name without a blank, the character after the
name is read. -/
theorem C83_overread (dest name : List Nat) (h32 : ∀ x ∈ name, x ≠ 32) :
    strcopy dest name name.length = none := by
  rw [strcopy, copyLoop_over name 0 (name.length + 1) h32 (by omega) (by omega)]

example : ∃ r, strcopy (List.replicate 125 0) ([65, 66, 32, 67] ++ [9]) 4 = some r ∧
    r.length = 125 ∧ cstr r = [65, 66] := by
  obtain ⟨r, h1, h2, h3⟩ := C83_name (List.replicate 125 0) [65, 66, 32, 67] [9] (by simp)
    (by simp) (by simp)
  exact ⟨r, h1, by simpa using h2, h3⟩

/-- The calls that change the table of channels. -/
inductive Op where
  | init (mem : List Nat) (lname : Nat)
  | clos (chan : Nat)
  | term

/-- The effect of a call, and the channel number returned by `mgi_init`. -/
def step (s : Mgi) : Op → Option (Mgi × Option Int)
  | .init mem lname => (mgiInit s mem lname).map fun r => (r.1, some r.2)
  | .clos chan => (mgiClos s chan).map fun s => (s, none)
  | .term => (mgiTerm s).map fun s => (s, none)

/-- The channel numbers returned by a sequence of calls; `none` when a call leaves memory. -/
def run (s : Mgi) : List Op → Option (Mgi × List Int)
  | [] => some (s, [])
  | op :: ops => do
    let r ← step s op
    let q ← run r.1 ops
    some (q.1, r.2.toList ++ q.2)

private theorem step_ichan (s s' : Mgi) (op : Op) (v : Option Int) (h : step s op = some (s', v)) :
    s.ichan ≤ s'.ichan ∧
    (∀ n, v = some n → s'.ichan = s.ichan + 1 ∧ (n = -1 ∨ n = s'.ichan ∧ s'.ichan < 24)) := by
  cases op with
  | init mem lname =>
    simp only [step, mgiInit, maxChannels, Option.map_eq_some_iff] at h
    obtain ⟨r, h, h'⟩ := h
    split at h
    · cases h
      simp only [Prod.mk.injEq] at h'
      obtain ⟨rfl, rfl⟩ := h'
      simp
    · rename_i hlt
      split at h
      · split at h
        · cases h
        · cases h
          simp only [Prod.mk.injEq] at h'
          obtain ⟨rfl, rfl⟩ := h'
          simp only [Nat.le_add_right, true_and, Option.some.injEq]
          rintro n rfl
          exact Or.inr ⟨rfl, by omega⟩
      · cases h
        simp only [Prod.mk.injEq] at h'
        obtain ⟨rfl, rfl⟩ := h'
        simp
  | clos chan =>
    simp only [step, mgiClos, Option.map_eq_some_iff] at h
    obtain ⟨r, h, h'⟩ := h
    split at h
    · cases h
    · cases h
      simp only [Prod.mk.injEq] at h'
      obtain ⟨rfl, rfl⟩ := h'
      simp
  | term =>
    simp only [step, mgiTerm, Option.map_eq_some_iff] at h
    obtain ⟨r, ⟨_, _, h⟩, h'⟩ := h
    subst h
    simp only [Prod.mk.injEq] at h'
    obtain ⟨rfl, rfl⟩ := h'
    simp

/-- C83 (channel numbers).  Over any sequence of calls, the channel numbers handed out by
`mgi_init` are between 1 and 23 and strictly increasing: no two channels share a number. -/
theorem C83_numbers (ops : List Op) (s s' : Mgi) (out : List Int)
    (h : run s ops = some (s', out)) :
    ((out.filter (· ≠ -1)).Pairwise (· < ·)) ∧
    (∀ n ∈ out, n = -1 ∨ (s.ichan : Int) < n ∧ n < 24) := by
  induction ops generalizing s out with
  | nil =>
    simp only [run, Option.some.injEq, Prod.mk.injEq] at h
    rw [← h.2]; simp
  | cons op ops ih =>
    simp only [run, bind, Option.bind] at h
    split at h
    · cases h
    · rename_i r hr
      dsimp only at h
      split at h
      · cases h
      · rename_i q hq
        dsimp only at h
        simp only [Option.some.injEq, Prod.mk.injEq] at h
        obtain ⟨h1, h2⟩ := ih r.1 q.2 (by rw [hq, ← h.1])
        obtain ⟨h3, h4⟩ := step_ichan s r.1 op r.2 hr
        rw [← h.2]
        cases hv : r.2 with
        | none =>
          simp only [Option.toList_none, List.nil_append]
          refine ⟨h1, fun n hn => ?_⟩
          rcases h2 n hn with h | h
          · exact Or.inl h
          · exact Or.inr ⟨by omega, h.2⟩
        | some n =>
          obtain ⟨h5, h6⟩ := h4 n hv
          simp only [Option.toList_some, List.cons_append, List.nil_append]
          constructor
          · rw [List.filter_cons]
            split
            · rename_i hn
              rw [List.pairwise_cons]
              refine ⟨?_, h1⟩
              intro m hm
              rw [List.mem_filter] at hm
              rcases h2 m hm.1 with h | h
              · simp [h] at hm
              · rcases h6 with h6 | h6
                · simp [h6] at hn
                · omega
            · exact h1
          · intro m hm
            rcases List.mem_cons.1 hm with rfl | hm
            · rcases h6 with h6 | h6
              · exact Or.inl h6
              · exact Or.inr ⟨by omega, by omega⟩
            · rcases h2 m hm with h | h
              · exact Or.inl h
              · exact Or.inr ⟨by omega, h.2⟩

/-- C83 (numbers are never given back).  Once 23 numbers have been used, by channels open,
closed, or refused for their name, every `mgi_init` fails. -/
theorem C83_exhausted (s : Mgi) (h : 23 ≤ s.ichan) (mem : List Nat) (lname : Nat) :
    mgiInit s mem lname = some ({ s with ichan := s.ichan + 1 }, -1) := by
  simp only [mgiInit, maxChannels]
  rw [if_pos (by omega)]

private theorem termLoop_spec (n : Nat) (chn : List Chan) (chan : Nat) (hc : chan ≤ chn.length) :
    (termLoop n chn chan = none ↔ chn.length < chan + n) := by
  induction n generalizing chn chan with
  | zero => simp only [termLoop, reduceCtorEq, false_iff]; omega
  | succ n ih =>
    by_cases hx : chan < chn.length
    · simp only [termLoop, List.getElem?_eq_getElem hx]
      split
      · rw [ih _ _ (by rw [List.length_set]; omega), List.length_set]; omega
      · rw [ih _ _ (by omega)]; omega
    · simp only [termLoop, List.getElem?_eq_none (by omega : chn.length ≤ chan), true_iff]; omega

/-- C83 (the end).  `mgi_term` stays inside the table exactly when fewer than 24 calls of
`mgi_init` have been made: the calls that fail count too, and after one call too many the last
entry looked at lies outside. -/
theorem C83_term (s : Mgi) (hl : s.chn.length = 24) : mgiTerm s = none ↔ 24 ≤ s.ichan := by
  rw [mgiTerm, Option.map_eq_none_iff, termLoop_spec _ _ _ (by omega), hl]; omega

/-- A run that meets the hypotheses: two channels, one refused for its length. -/
example : (run Mgi.start [.init [65, 32] 2, .init [66, 32] 200, .clos 1, .init [67, 32] 2]).map
    (·.2) = some [1, -1, 3] := by decide +kernel

/-- C83 (`W`).  All the attempts to open a channel for writing ask for `write`, and there is at
most one more than the number of retries. -/
theorem C83_open_write (retries : Nat) (env : List Int) :
    (∀ m ∈ (openConnect retries .write env).2, m = .write) ∧
    (openConnect retries .write env).2.length ≤ retries + 1 := by
  have key : ∀ (n : Nat) (env : List Int) (g : Int),
      (∀ m ∈ (retryConnect n env g).2, m = Mode.write) ∧ (retryConnect n env g).2.length ≤ n := by
    intro n
    induction n with
    | zero => intro env g; simp [retryConnect]
    | succ n ih =>
      intro env g
      cases env with
      | nil => simp [retryConnect]
      | cons r env =>
        simp only [retryConnect]
        split
        · obtain ⟨h1, h2⟩ := ih env r
          refine ⟨?_, by simp only [List.length_cons]; omega⟩
          intro m hm
          rcases List.mem_cons.1 hm with h | h
          · exact h
          · exact h1 m h
        · simp
  cases env with
  | nil => simp [openConnect]
  | cons r env =>
    simp only [openConnect]
    split
    · obtain ⟨h1, h2⟩ := key retries env r
      refine ⟨?_, by simp only [List.length_cons]; omega⟩
      intro m hm
      rcases List.mem_cons.1 hm with h | h
      · exact h
      · exact h1 m h
    · simp

/-- C83 (`R`, partial).  A channel opened for reading asks for `read` when the first attempt
succeeds.  Missing: the other attempts (see `C83_retry_witness`). -/
theorem C83_open_read_partial (retries : Nat) (r : Int) (env : List Int) (h : 0 ≤ r) :
    openConnect retries .read (r :: env) = (r, [.read]) := by
  simp only [openConnect]
  rw [if_neg (by omega)]

/-- C83 (`R`).  When the first attempt fails and a later one succeeds, the channel opened for
reading is connected in mode `write` (mgilib2.c:419). -/
theorem C83_retry_witness : openConnect 10 .read [-1, 6] = (6, [.read, .write]) := by decide

end Verif.Mgi
