import Verif.FnomSlots
import Verif.Props.Fnom

/-! # Property C90: the table of word addressable files -/

namespace Verif.Fnom

/-- The slot used for reading and writing a file: the first one with its descriptor (c_baseio.c 2239-2242 and 2353-2354). -/
def slotOf (s : St) (e : Entry) : Option Nat := s.slots.findIdx? (·.fd == e.fd)

/-- C90.  After expected calls every open word addressable file has a slot, of its descriptor, that no other open file uses. -/
theorem C90_slots (ops : List Op) (s : St) (L : LegalRun initial ops) (h : run initial ops = .ok s) (i : Nat) (e : Entry)
    (he : s.table[i]? = some e) (ho : e.isOpen = true) (hf : e.attr.ftn = false) :
    ∃ (j : Nat) (w : Slot), slotOf s e = some j ∧ s.slots[j]? = some w ∧ w.fd = e.fd ∧ 0 ≤ e.fd ∧
      ∀ (i' : Nat) (e' : Entry), s.table[i']? = some e' → e'.isOpen = true → e'.attr.ftn = false → i' ≠ i →
        e'.fd ≠ e.fd ∧ slotOf s e' ≠ some j := by
  have S := run_slots ops initial_inv initial_slots L h
  obtain ⟨hw, hp, j, w, hj, hjw⟩ := S.has i e he ⟨ho, hf⟩
  unfold slotOf
  have hfind : ∃ k, s.slots.findIdx? (·.fd == e.fd) = some k := by
    refine Option.ne_none_iff_exists'.1 fun hk => ?_
    rw [List.findIdx?_eq_none_iff] at hk
    have := hk w (List.mem_of_getElem? hj)
    simp [hjw] at this
  obtain ⟨k, hk⟩ := hfind
  obtain ⟨hlt, hkw, -⟩ := List.findIdx?_eq_some_iff_getElem.mp hk
  have hkw' : s.slots[k].fd = e.fd := by simpa using hkw
  refine ⟨k, s.slots[k], hk, List.getElem?_eq_getElem hlt, hkw', hp, fun i' e' he' ho' hf' hne => ?_⟩
  have hfd : e'.fd ≠ e.fd := fun hc => hne (S.own i' i e' e he' he ⟨ho', hf'⟩ ⟨ho, hf⟩ hc)
  refine ⟨hfd, fun hc => ?_⟩
  obtain ⟨hlt', hkw2, -⟩ := List.findIdx?_eq_some_iff_getElem.mp hc
  have : s.slots[k].fd = e'.fd := by simpa using hkw2
  omega

/-- C90.  After expected calls a slot in use belongs to an open file: closing a file frees its slot. -/
theorem C90_free (ops : List Op) (s : St) (L : LegalRun initial ops) (h : run initial ops = .ok s) (hw : s.waInit = true)
    (j : Nat) (w : Slot) (hj : s.slots[j]? = some w) (hn : w.fd ≠ -1) :
    ∃ (i : Nat) (e : Entry), s.table[i]? = some e ∧ e.isOpen = true ∧ e.attr.ftn = false ∧ e.fd = w.fd := by
  obtain ⟨i, e, h1, h2, h3⟩ := (run_slots ops initial_inv initial_slots L h).used j w hw hj hn
  exact ⟨i, e, h1, h2.1, h2.2, h3⟩

/-- Two files opened with different descriptors: an expected program. -/
def osFd (d : Nat) : Os := { access := fun _ => true, rdonly := fun _ => some d, rdwr := fun _ => some d, creat := fun _ => some d }

example : ∃ s, run initial [.fnom (osFd 3) 21 ['a'] Kw.rnd.upper 0, .fnom (osFd 4) 22 ['b'] Kw.rnd.upper 0, .waclos 21, .fclos (osFd 3) 21] = .ok s ∧
    (s.slots[0]? == some ⟨-1, 0⟩ && s.slots[1]? == some ⟨4, 0⟩ &&
      (s.table[1]?.map fun e => e.iun == 22 && e.isOpen && !e.attr.ftn && slotOf s e == some 1) == some true) = true :=
  ok_of _ _ (by decide +kernel)

/-- A call where the system opens the file with descriptor `d`. -/
inductive Call
  | fnom (d : Nat) (u : Int) (nom type : Str)
  | fclos (u : Int)
  | waclos (u : Int)

/-- The call with its system. -/
def Call.op : Call → Op
  | .fnom d u nom type => .fnom (osFd d) u nom type 0
  | .fclos u => .fclos (osFd 0) u
  | .waclos u => .waclos u

/-- `Legal`, computed. -/
def Call.legal (s : St) : Call → Bool
  | .fnom d _ _ _ => (!s.waInit || s.slots.all (fun w => !(w.fd == (d : Int)))) && (s.started || s.table.all (fun e => !(e.isOpen && !e.attr.ftn)))
  | .fclos u => s.table.all (fun e => !(e.iun == u) || !(e.isOpen && !e.attr.ftn))
  | .waclos u => s.table.all (fun e => !(e.iun == u) || !e.attr.ftn)

theorem Call.legal_spec (s : St) (c : Call) (h : c.legal s = true) : Legal s c.op := by
  cases c with
  | fnom d u nom type =>
    simp only [Call.legal, Bool.and_eq_true, Bool.or_eq_true, List.all_eq_true, Bool.not_eq_true'] at h
    obtain ⟨h1, h2⟩ := h
    refine ⟨fun f d' hd hw j w hj => ?_, (by decide : (0 : Int) < 1), ?_⟩
    · have hdd : d = d' := by
        rcases hd with hd | hd | hd <;> exact Option.some.inj hd
      subst hdd
      rcases h1 with h1 | h1
      · rw [hw] at h1; cases h1
      · have := h1 w (List.mem_of_getElem? hj)
        simpa using this
    · rcases h2 with h2 | h2
      · exact .inl h2
      · refine .inr fun i e he ho => ?_
        have := h2 e (List.mem_of_getElem? he)
        rw [ho.1, ho.2] at this
        cases this
  | fclos u =>
    simp only [Call.legal, List.all_eq_true] at h
    intro i e he hu ho
    have := h e (List.mem_of_getElem? he)
    rw [ho.1, ho.2] at this
    simp [hu] at this
  | waclos u =>
    simp only [Call.legal, List.all_eq_true] at h
    intro i e he hu
    have := h e (List.mem_of_getElem? he)
    simpa [hu] using this

/-- `LegalRun`, computed. -/
def legalRun : St → List Call → Bool
  | _, [] => true
  | s, c :: cs => c.legal s && match step s c.op with | .ok s' => legalRun s' cs | .error _ => true

theorem legalRun_spec : ∀ (cs : List Call) (s : St), legalRun s cs = true → LegalRun s (cs.map Call.op)
  | [], _, _ => trivial
  | c :: cs, s, h => by
    rw [legalRun, Bool.and_eq_true] at h
    refine ⟨c.legal_spec s h.1, fun s' hs => ?_⟩
    have h2 := h.2
    rw [hs] at h2
    exact legalRun_spec cs s' h2

example : LegalRun initial ([Call.fnom 3 21 ['a'] Kw.rnd.upper, .fnom 4 22 ['b'] Kw.rnd.upper, .fnom 5 0 ['c'] Kw.ftn.upper, .waclos 21, .fclos 21,
    .fnom 3 0 ['d'] Kw.std.upper].map Call.op) :=
  legalRun_spec _ _ (by decide +kernel)

/-- One call of `c_fnom` for a random file and one of `c_fclos`. -/
def pair : List Op := [.fnom (osFd 3) 21 ['a'] Kw.rnd.upper 0, .fclos (osFd 3) 21]

/-- The state after `n` such pairs. -/
def leaked (n : Nat) : St :=
  { table := List.replicate maxFiles { fd := -1 }, slots := List.replicate n ⟨3, 0⟩ ++ List.replicate (maxWaFiles - n) ⟨-1, 0⟩
    started := true, waInit := true }

theorem free_slot : ∀ n m : Nat, (List.replicate n (⟨3, 0⟩ : Slot) ++ List.replicate (m + 1) (⟨-1, 0⟩ : Slot)).findIdx? (fun w => w.fd == -1) = some n
  | 0, m => by rw [List.replicate_succ]; rfl
  | n + 1, m => by
    rw [List.replicate_succ, List.cons_append, List.findIdx?_cons, free_slot n m]
    simp

theorem take_slot : ∀ n m : Nat, (List.replicate n (⟨3, 0⟩ : Slot) ++ List.replicate (m + 1) (⟨-1, 0⟩ : Slot)).modify n (fun w => { w with fd := ((3 : Nat) : Int) }) =
    List.replicate (n + 1) (⟨3, 0⟩ : Slot) ++ List.replicate m (⟨-1, 0⟩ : Slot)
  | 0, m => by simp [List.replicate_succ]
  | n + 1, m => by
    rw [List.replicate_succ, List.cons_append, List.modify_succ_cons, take_slot n m, List.replicate_succ (n := n + 1), List.cons_append]

/-- The entry during the call. -/
def during : Entry :=
  { name := some ['a'], ftype := some Kw.rnd.upper, iun := 21, fd := -1, attr := { rnd := true } }

/-- The same with the first entry of the table. -/
def withFirst (n : Nat) (e : Entry) : St := { leaked n with table := (List.replicate maxFiles ({ fd := -1 } : Entry)).set 0 e }

theorem pair_step (n : Nat) (h : n < maxWaFiles) : run (leaked n) pair = .ok (leaked (n + 1)) := by
  obtain ⟨m, hm⟩ : ∃ m, maxWaFiles - n = m + 1 := ⟨maxWaFiles - n - 1, by omega⟩
  have hm' : maxWaFiles - (n + 1) = m := by omega
  have f1 : find (List.replicate maxFiles ({ fd := -1 } : Entry)) 21 = none := by decide +kernel
  have f2 : find (List.replicate maxFiles ({ fd := -1 } : Entry)) 0 = some 0 := by decide +kernel
  have f3 : (List.replicate maxFiles ({ fd := -1 } : Entry))[0]? = some { fd := -1 } := by decide +kernel
  have f4 : register (osFd 3) 21 ['a'] Kw.rnd.upper 0 { fd := -1 } = .ok (during, true) := rfl
  have f5 : ∀ e : Entry, e.iun = 21 → find ((List.replicate maxFiles ({ fd := -1 } : Entry)).set 0 e) 21 = some 0 := by
    intro e he
    unfold find
    rw [show (List.replicate maxFiles ({ fd := -1 } : Entry)).set 0 e = e :: List.replicate 1023 { fd := -1 } from rfl, List.findIdx?_cons]
    simp [he]
  have f6 : ∀ e : Entry, ((List.replicate maxFiles ({ fd := -1 } : Entry)).set 0 e)[0]? = some e := fun e => set_get f3
  have f7 : openPlain (osFd 3) during.name during.attr = (some 3, false) := rfl
  have hw : waopen (osFd 3) 21 (withFirst n during) =
      .ok (withFirst (n + 1) { during with fd := 3, isOpen := true, attr := { rnd := true, wa := true } }, 3) := by
    unfold waopen withFirst
    simp only [f5 during rfl, f6, show during.attr.rnd = true from rfl, show during.isOpen = false from rfl, Bool.not_true,
      Bool.false_eq_true, if_false]
    unfold qqcopen waStart leaked
    simp only [if_true, f6, hm, free_slot, f7, show during.sub = none from rfl]
    rw [take_slot]
    simp only [Except.map]
    unfold waFinish
    rw [if_pos (by exact Int.natCast_nonneg 3), modify_set (a := { during with fd := 3, isOpen := true }) _ (by rw [List.set_set]; exact f6 _), hm', List.set_set, List.set_set]
    rfl
  have hn : fnom (osFd 3) 21 ['a'] Kw.rnd.upper 0 (leaked n) =
      .ok (withFirst (n + 1) { during with fd := 3, isOpen := true }, 21, 0) := by
    have hc : connect (osFd 3) 21 ['a'] Kw.rnd.upper 0 (leaked n) = .ok (withFirst (n + 1) { during with fd := 3, isOpen := true }, 0) := by
      unfold connect
      simp only [show (leaked n).table = List.replicate maxFiles { fd := -1 } from rfl, f1, f2, f3, f4, Option.isSome_none, Bool.false_eq_true,
        if_false, Except.bind, if_true]
      unfold openNew
      rw [show ({ leaked n with table := (leaked n).table.set 0 during } : St) = withFirst n during from rfl, if_neg (by decide), if_neg (by decide), hw]
      simp only [Except.map]
      rw [if_neg (by decide), if_neg (by decide)]
      unfold withFirst
      rw [modify_set _ (f6 _), List.set_set]
      rfl
    unfold fnom
    have e1 : start (leaked n) = leaked n := rfl
    simp only [e1, show ¬ ((21 : Int) = 0) by decide, show ¬ ((21 : Int) = -1) by decide, show ¬ ((21 : Int) = 6) by decide,
      show ¬ ((21 : Int) = 5) by decide, show ¬ ((21 : Int) = -2) by decide, if_false, false_and, hc, Except.map]
  have hf : (fclos (osFd 3) 21 (withFirst (n + 1) { during with fd := 3, isOpen := true })).1 = leaked (n + 1) := by
    rw [fclos_spec _ _ _ 0 { during with fd := 3, isOpen := true } (f5 _ rfl) (f6 _),
      if_neg (by rintro (⟨h, -⟩ | ⟨h, -⟩) <;> exact absurd h (by decide))]
    unfold withFirst leaked
    dsimp only
    rw [List.set_set]
    rfl
  unfold pair
  simp only [run, step, hn, Except.map, Except.bind, hf]

theorem run_append : ∀ (a b : List Op) (s : St), run s (a ++ b) = (run s a).bind (run · b)
  | [], _, _ => rfl
  | op :: a, b, s => by
    rw [List.cons_append, run, run]
    rcases step s op with _ | s1
    · rfl
    · exact run_append a b s1

theorem pairs_run : ∀ n k : Nat, n + k ≤ maxWaFiles → run (leaked n) (List.replicate k pair).flatten = .ok (leaked (n + k))
  | n, 0, _ => rfl
  | n, k + 1, h => by
    rw [List.replicate_succ, List.flatten_cons, run_append, pair_step n (by omega)]
    simp only [Except.bind]
    rw [pairs_run (n + 1) k (by omega)]
    congr 2
    omega

theorem error_of {α : Type} (x : Except Fault α) (f : Fault) (h : (match x with | .ok _ => false | .error g => g == f) = true) : x = .error f := by
  cases x with
  | ok s => cases h
  | error e => rw [beq_iff_eq.1 h]

/-- C90 is false when a random file is closed with `c_fclos` alone: each opening with `c_fnom` takes a slot that `c_fclos`
does not free.  After 1024 openings and closings of one file the next opening reads past the table of slots. -/
theorem C90_leak_witness :
    (∀ n, 1 ≤ n → n ≤ maxWaFiles → ∃ s, run initial (List.replicate n pair).flatten = .ok s ∧ ¬ InUse s 21 ∧
      ∀ j, j < n → s.slots[j]? = some ⟨3, 0⟩) ∧
    run initial (List.replicate (maxWaFiles + 1) pair).flatten = .error .outside := by
  have h1 : run initial pair = .ok (leaked 1) := by
    obtain ⟨s, h1, h2⟩ := ok_of (run initial pair) (fun s => s == leaked 1) (by decide +kernel)
    rw [h1, beq_iff_eq.1 h2]
  have hn : ∀ n, 1 ≤ n → n ≤ maxWaFiles → run initial (List.replicate n pair).flatten = .ok (leaked n) := by
    intro n h0 hle
    obtain ⟨k, rfl⟩ : ∃ k, n = k + 1 := ⟨n - 1, by omega⟩
    rw [List.replicate_succ, List.flatten_cons, run_append, h1]
    simp only [Except.bind]
    rw [pairs_run 1 k (by omega), Nat.add_comm]
  refine ⟨fun n h0 hle => ⟨_, hn n h0 hle, ?_, fun j hj => ?_⟩, ?_⟩
  · rw [inUse_iff]
    have : find (leaked n).table 21 = none := by
      show find (List.replicate maxFiles ({ fd := -1 } : Entry)) 21 = none
      decide +kernel
    simp [this]
  · unfold leaked
    dsimp only
    rw [List.getElem?_append_left (by simpa using hj)]
    simp [hj]
  · rw [List.replicate_succ', List.flatten_append, run_append, hn maxWaFiles (by decide) (Nat.le_refl _)]
    have : run (leaked maxWaFiles) pair = .error .outside := error_of _ _ (by decide +kernel)
    simpa [Except.bind] using this

/-- The offset of a sub-file stays in its slot after `c_waclos`, and a plain file opened next in this slot gets it: its
transfers (c_baseio.c lines 2248-2251 and 2383-2386) go to shifted addresses. -/
theorem C90_offset_witness : ∃ s, run initial
    [.fnom { osFd 3 with filepos := 100 } 21 ['a', '@', 'b'] Kw.rnd.upper 0, .waclos 21, .fclos (osFd 3) 21,
      .fnom (osFd 4) 22 ['c'] Kw.rnd.upper 0] = .ok s ∧
    (s.slots[0]? == some ⟨4, 100⟩ &&
      (s.table[0]?.map fun e => e.iun == 22 && e.isOpen && e.sub.isNone && slotOf s e == some 0) == some true) = true :=
  ok_of _ _ (by decide +kernel)

/-- A sub-file that is not in its archive: `c_fnom` fails, and neither `c_waclos` nor `c_fclos` frees the slot and the
descriptor it took. -/
theorem C90_lost_witness : ∃ s, run initial
    [.fnom { osFd 3 with filepos := -2 } 21 ['a', '@', 'b'] Kw.rnd.upper 0, .waclos 21, .fclos (osFd 3) 21] = .ok s ∧
    (s.slots[0]? == some ⟨3, -2⟩ && (find s.table 21).isNone && s.table.all (!·.isOpen)) = true :=
  ok_of _ _ (by decide +kernel)

end Verif.Fnom
