import Verif.Gossip

/-!
# C79: the socket loops neither lose, duplicate nor reorder a byte

The theorems hold for every sequence of outcomes of the system calls: transfers of any size,
interruptions, calls that would block, errors.
-/

namespace Verif.Gossip

/-- C79 (writing).  Whatever the system calls do, the bytes handed to the kernel are a prefix of
the data, in order and once each; the value returned is 0 exactly when all of them went, and -1
exactly when the loop gave up with some left. -/
theorem C79_write (cs : List Call) (data : List Byte) :
    (∃ rest, data = (writeFt cs data).bytes ++ rest) ∧
    ((writeFt cs data).ret = some 0 ↔ (writeFt cs data).bytes = data) ∧
    ((writeFt cs data).ret = some 0 ∨ (writeFt cs data).ret = some (-1) ∨
      (writeFt cs data).ret = none) := by
  induction cs generalizing data with
  | nil => cases data <;> simp [writeFt]
  | cons c cs ih =>
    cases data with
    | nil => simp [writeFt]
    | cons d ds =>
      cases c with
      | eintr => simpa [writeFt] using ih (d :: ds)
      | error => simp [writeFt]
      | eagain iers =>
        by_cases h1 : iers < 0
        · simp [writeFt, h1]
        · by_cases h2 : iers = 0
          · simp [writeFt, h2]
          · simpa [writeFt, h1, h2] using ih (d :: ds)
      | xfer k =>
        cases k with
        | zero => simp [writeFt]
        | succ k =>
          obtain ⟨⟨rest, h1⟩, h2, h3⟩ := ih (ds.drop k)
          refine ⟨⟨rest, ?_⟩, ?_, ?_⟩
          · simp only [writeFt, List.cons_append, List.append_assoc]
            rw [← h1, List.take_append_drop]
          · simp only [writeFt, List.cons_append]
            rw [h2]
            constructor
            · intro h
              rw [h, List.take_append_drop]
            · intro h
              have h' := (List.cons.inj h).2
              have h4 : ds.take k ++ (writeFt cs (ds.drop k)).bytes = ds.take k ++ ds.drop k := by
                rw [h', List.take_append_drop]
              exact List.append_cancel_left h4
          · simpa [writeFt] using h3

/-- A schedule in which the calls only move bytes, are interrupted, or would block until the
socket is ready again. -/
def Benign : Call → Prop
  | .xfer k => 0 < k
  | .eintr => True
  | .eagain s => 0 < s
  | .error => False

/-- The number of calls of a schedule that move at least one byte. -/
def transfers : List Call → Nat
  | [] => 0
  | .xfer _ :: cs => transfers cs + 1
  | _ :: cs => transfers cs

/-- C79 (writing succeeds).  Interruptions and waits only delay: as soon as enough transfers
have taken place, the loop returns 0 and all the data has gone. -/
theorem C79_write_done (cs : List Call) (data : List Byte) (hb : ∀ c ∈ cs, Benign c)
    (hn : data.length ≤ transfers cs) :
    (writeFt cs data).ret = some 0 ∧ (writeFt cs data).bytes = data := by
  have key : (writeFt cs data).ret = some 0 := by
    induction cs generalizing data with
    | nil =>
      cases data with
      | nil => simp [writeFt]
      | cons d ds => simp [transfers] at hn
    | cons c cs ih =>
      have hb' : ∀ c ∈ cs, Benign c := fun x hx => hb x (List.mem_cons_of_mem _ hx)
      have hc := hb c List.mem_cons_self
      cases data with
      | nil => simp [writeFt]
      | cons d ds =>
        cases c with
        | eintr => exact ih _ hb' (by simpa [transfers] using hn)
        | error => exact absurd hc (by simp [Benign])
        | eagain s =>
          have hs : 0 < s := hc
          have h1 : ¬ s < 0 := by omega
          have h2 : s ≠ 0 := by omega
          simpa [writeFt, h1, h2] using ih (d :: ds) hb' (by simpa [transfers] using hn)
        | xfer k =>
          cases k with
          | zero => exact absurd hc (by simp [Benign])
          | succ k =>
            simp only [writeFt]
            apply ih _ hb'
            simp only [List.length_cons, transfers] at hn
            simp only [List.length_drop]
            omega
  exact ⟨key, ((C79_write cs data).2.1).1 key⟩

example : writeFt [.xfer 2, .eintr, .eagain 1, .xfer 7] [1#8, 2#8, 3#8] =
    ⟨some 0, [1#8, 2#8, 3#8], []⟩ := by decide

example : writeFt [.xfer 2, .eagain 0] [1#8, 2#8, 3#8] = ⟨some (-1), [1#8, 2#8], []⟩ := by decide

private theorem readLoop_spec (final : Nat → Int) (cs : List Call) (remaining total : Nat) (s : List Byte) :
    (∃ rest, s = (readLoop final cs remaining total s).bytes ++ rest) ∧
    (readLoop final cs remaining total s).bytes.length ≤ remaining ∧
    ((readLoop final cs remaining total s).ret = some (final (total + remaining)) ∧
        (readLoop final cs remaining total s).bytes.length = remaining ∨
      ((readLoop final cs remaining total s).ret = some (-1) ∨
        (readLoop final cs remaining total s).ret = none) ∧
        (readLoop final cs remaining total s).bytes.length < remaining) := by
  induction cs generalizing remaining total s with
  | nil => cases remaining <;> simp [readLoop]
  | cons c cs ih =>
    cases remaining with
    | zero => simp [readLoop]
    | succ n =>
      cases c with
      | eintr => simpa [readLoop] using ih (n + 1) total s
      | error => simp [readLoop]
      | eagain iers =>
        by_cases h1 : iers < 0
        · simp [readLoop, h1]
        · by_cases h2 : iers = 0
          · simp [readLoop, h2]
          · simpa [readLoop, h1, h2] using ih (n + 1) total s
      | xfer k =>
        by_cases h0 : (s.take (min k (n + 1))).length = 0
        · simp only [readLoop, if_pos h0]
          simp
        · simp only [readLoop, if_neg h0]
          generalize hg : s.take (min k (n + 1)) = g at h0
          have hgl : g.length ≤ n + 1 := by rw [← hg, List.length_take]; omega
          have hgs : g ++ s.drop g.length = s := by
            rw [← hg, List.length_take]
            have : s.drop (min (min k (n + 1)) s.length) = s.drop (min k (n + 1)) := by
              rcases Nat.le_total (min k (n + 1)) s.length with h | h
              · rw [Nat.min_eq_left h]
              · rw [Nat.min_eq_right h, List.drop_eq_nil_of_le (Nat.le_refl _),
                  List.drop_eq_nil_of_le h]
            rw [this, List.take_append_drop]
          obtain ⟨⟨rest, i1⟩, i2, i3⟩ := ih (n + 1 - g.length) (total + g.length) (s.drop g.length)
          have he : total + g.length + (n + 1 - g.length) = total + (n + 1) := by omega
          rw [he] at i3
          refine ⟨⟨rest, ?_⟩, ?_, ?_⟩
          · rw [List.append_assoc, ← i1, hgs]
          · simp only [List.length_append]; omega
          · simp only [List.length_append]
            rcases i3 with ⟨a, b⟩ | ⟨a, b⟩
            · exact Or.inl ⟨a, by omega⟩
            · exact Or.inr ⟨a, by omega⟩

/-- C79 (reading).  Whatever the system calls do, the bytes stored are a prefix of what the peer
sends, at most the number asked for; the loop returns 0 exactly when it has stored exactly the
first `n` bytes of the stream, and otherwise -1 (or has not returned) with fewer. -/
theorem C79_read (cs : List Call) (n : Nat) (s : List Byte) :
    (∃ rest, s = (readFt cs n s).bytes ++ rest) ∧
    ((readFt cs n s).ret = some 0 ∧ (readFt cs n s).bytes = s.take n ∧ n ≤ s.length ∨
      ((readFt cs n s).ret = some (-1) ∨ (readFt cs n s).ret = none) ∧
        (readFt cs n s).bytes.length < n) := by
  obtain ⟨⟨rest, h1⟩, _, h3⟩ := readLoop_spec (fun _ => 0) cs n 0 s
  refine ⟨⟨rest, h1⟩, ?_⟩
  rcases h3 with ⟨a, b⟩ | h3
  · refine Or.inl ⟨a, ?_, ?_⟩
    · change (readFt cs n s).bytes.length = n at b
      change s = (readFt cs n s).bytes ++ rest at h1
      have : s.take n = ((readFt cs n s).bytes ++ rest).take n := by rw [← h1]
      rw [this, List.take_left' b]
    · rw [h1, List.length_append, b]; omega
  · exact Or.inr h3

/-- C79 (reading with a count).  The value returned is the number of bytes stored when it is
not -1, and it is then the number asked for, never less. -/
theorem C79_read_count (cs : List Call) (n : Nat) (s : List Byte) :
    (readFtCount cs n s).ret = some (n : Int) ∧ (readFtCount cs n s).bytes = s.take n ∧
        n ≤ s.length ∨
      ((readFtCount cs n s).ret = some (-1) ∨ (readFtCount cs n s).ret = none) ∧
        (∃ rest, s = (readFtCount cs n s).bytes ++ rest) ∧
        (readFtCount cs n s).bytes.length < n := by
  obtain ⟨⟨rest, h1⟩, _, h3⟩ := readLoop_spec (fun t => (t : Int)) cs n 0 s
  rcases h3 with ⟨a, b⟩ | h3
  · refine Or.inl ⟨by simpa [readFtCount] using a, ?_, ?_⟩
    · change (readFtCount cs n s).bytes.length = n at b
      change s = (readFtCount cs n s).bytes ++ rest at h1
      have : s.take n = ((readFtCount cs n s).bytes ++ rest).take n := by rw [← h1]
      rw [this, List.take_left' b]
    · rw [h1, List.length_append, b]; omega
  · exact Or.inr ⟨h3.1, ⟨rest, h1⟩, h3.2⟩

/-- C79 (reading succeeds).  If the peer sends at least `n` bytes, interruptions and waits only
delay: after enough transfers the loop returns 0. -/
theorem C79_read_done (cs : List Call) (n : Nat) (s : List Byte) (hb : ∀ c ∈ cs, Benign c)
    (hs : n ≤ s.length) (hn : n ≤ transfers cs) :
    (readFt cs n s).ret = some 0 ∧ (readFt cs n s).bytes = s.take n := by
  have key : ∀ (cs : List Call) (n t : Nat) (s : List Byte), (∀ c ∈ cs, Benign c) →
      n ≤ s.length → n ≤ transfers cs → (readLoop (fun _ => 0) cs n t s).ret = some 0 := by
    intro cs
    induction cs with
    | nil =>
      intro n t s _ _ hn
      cases n with
      | zero => simp [readLoop]
      | succ n => simp [transfers] at hn
    | cons c cs ih =>
      intro n t s hb hs hn
      have hb' : ∀ c ∈ cs, Benign c := fun x hx => hb x (List.mem_cons_of_mem _ hx)
      have hc := hb c List.mem_cons_self
      cases n with
      | zero => simp [readLoop]
      | succ n =>
        cases c with
        | eintr => exact ih _ _ _ hb' hs (by simpa [transfers] using hn)
        | error => exact absurd hc (by simp [Benign])
        | eagain v =>
          have hv : 0 < v := hc
          have h1 : ¬ v < 0 := by omega
          have h2 : v ≠ 0 := by omega
          simpa [readLoop, h1, h2] using ih (n + 1) t s hb' hs (by simpa [transfers] using hn)
        | xfer k =>
          have hk : 0 < k := hc
          have hl : (s.take (min k (n + 1))).length = min k (n + 1) := by
            rw [List.length_take]; omega
          simp only [transfers] at hn
          have h1 : ¬ min k (n + 1) = 0 := by omega
          simp only [readLoop, hl, if_neg h1]
          apply ih _ _ _ hb'
          · rw [List.length_drop]; omega
          · omega
  have hr := key cs n 0 s hb hs hn
  rcases (C79_read cs n s).2 with h | ⟨h, _⟩
  · exact ⟨h.1, h.2.1⟩
  · change (readFt cs n s).ret = some 0 at hr
    rw [hr] at h
    exact absurd h (by simp)

example : readFt [.xfer 2, .eintr, .eagain 1, .xfer 7] 3 [1#8, 2#8, 3#8, 4#8] =
    ⟨some 0, [1#8, 2#8, 3#8], []⟩ := by decide

example : readFtCount [.xfer 1, .xfer 0] 3 [1#8, 2#8, 3#8, 4#8] =
    ⟨some (-1), [1#8], []⟩ := by decide

example : readFtCount [.xfer 9] 3 [1#8, 2#8, 3#8, 4#8] =
    ⟨some 3, [1#8, 2#8, 3#8], []⟩ := by decide

end Verif.Gossip
