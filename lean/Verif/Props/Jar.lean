import Verif.Jar
import Mathlib.Data.List.GetD

/-!
C44: jars.  Two specifications: a queue of objects, for inserts and extracts without position; and, with positions,
a list of bytes of which everything after an insertion is cut off.
-/
namespace Props.Jar
open Verif.Jar

/-! ### Jars with positions -/

/-- What a jar stands for: its capacity in elements, the bytes it contains, the element to be read next. -/
structure Box where
  cap : Nat
  data : List Byte
  next : Nat

/-- Size in elements of 8 bytes. -/
def elems (n : Nat) : Nat := (n + 7) / 8

/-- Insertion before element `p`, with zeros up to it if needed. -/
def Box.insert (b : Box) (obj : List Byte) (junk : Nat → Byte) (p : Nat) : Box :=
  { b with data := b.data.take (8 * p) ++ List.replicate (8 * p - b.data.length) 0#8 ++
      (List.range (8 * elems obj.length)).map fun i => obj.getD i (junk i) }

def Box.step (b : Box) : Op → Box × Out
  | .insert obj junk pos =>
    match pos with
    | none =>
      if b.data.length + 8 * elems obj.length ≤ 8 * b.cap then (b.insert obj junk (b.data.length / 8), .done true)
      else (b, .done false)
    | some p =>
      if 1 ≤ p ∧ (p - 1).toNat + elems obj.length ≤ b.cap then (b.insert obj junk (p - 1).toNat, .done true)
      else (b, .done false)
  | .extract n pos =>
    let p : Int := match pos with
      | none => b.next
      | some p => p - 1
    if 0 ≤ p ∧ 8 * (p.toNat + elems n) ≤ b.data.length then
      ({ b with next := p.toNat + elems n }, .bytes (some ((b.data.drop (8 * p.toNat)).take n)))
    else (b, .bytes none)
  | .reset => ({ b with data := [], next := 0 }, .done true)

def Box.run (b : Box) : List Op → List Out
  | [] => []
  | o :: os => (b.step o).2 :: (b.step o).1.run os

/-- No insertion may start beyond the end of the jar. -/
def Inside (cap : Nat) : Op → Prop
  | .insert _ _ (some p) => p ≤ cap + 1
  | _ => True

structure R (j : Jar) (b : Box) : Prop where
  ptr : j.ptr = true
  size : j.size = b.cap
  top : 8 * j.top = b.data.length
  fits : j.top ≤ j.size
  bot : j.bot = b.next
  mem : j.mem.length = 8 * j.size
  data : j.mem.take (8 * j.top) = b.data

theorem write_spec (mem : List Byte) (off : Nat) (x : List Byte) (h : off + x.length ≤ mem.length) :
    ∃ m, write mem off x = some m ∧ m.length = mem.length ∧ m.take (off + x.length) = mem.take off ++ x ∧
      ∀ k, k ≤ off → m.take k = mem.take k := by
  refine ⟨_, if_pos h, ?_, ?_, ?_⟩
  · simp; omega
  · rw [List.take_append_of_le_length (by simp; omega)]
    apply List.take_of_length_le
    simp; omega
  · intro k hk
    rw [List.append_assoc, List.take_append_of_le_length (by simp; omega), List.take_take, Nat.min_eq_left hk]

theorem elems_eq (n : Nat) : (8 * n + 64 - 1) / 64 = elems n := by unfold elems; omega

theorem insert_R (j : Jar) (b : Box) (obj : List Byte) (junk : Nat → Byte) (pos : Option Int) (h : R j b)
    (hin : Inside b.cap (.insert obj junk pos)) :
    ∃ j' o, step j (.insert obj junk pos) = some (j', o) ∧ o = (b.step (.insert obj junk pos)).2 ∧
      R j' (b.step (.insert obj junk pos)).1 := by
  obtain ⟨ip, hip⟩ : ∃ ip : Int, ip = posOf pos j.top := ⟨_, rfl⟩
  have hb : b.step (.insert obj junk pos) =
      if 0 ≤ ip ∧ ip.toNat + elems obj.length ≤ b.cap then (b.insert obj junk ip.toNat, .done true) else (b, .done false) := by
    have ht := h.top
    cases pos with
    | none =>
      simp only [Box.step]
      simp only [posOf] at hip
      subst hip
      rw [Int.toNat_natCast, ← ht, show 8 * j.top / 8 = j.top by omega]
      by_cases hc : j.top + elems obj.length ≤ b.cap
      · rw [if_pos (by omega), if_pos ⟨by omega, hc⟩]
      · rw [if_neg (by omega), if_neg (by rintro ⟨_, h⟩; exact hc h)]
    | some p =>
      simp only [posOf] at hip
      subst hip
      simp only [Box.step]
      by_cases hc : 1 ≤ p ∧ (p - 1).toNat + elems obj.length ≤ b.cap
      · rw [if_pos hc, if_pos ⟨by omega, hc.2⟩]
      · rw [if_neg hc, if_neg (by rintro ⟨h1, h2⟩; exact hc ⟨by omega, h2⟩)]
  have hcap : ip.toNat ≤ b.cap := by
    cases pos with
    | none => simp only [posOf] at hip; subst hip; have := h.fits; have := h.size; simp; omega
    | some p => simp only [posOf] at hip; subst hip; have : p ≤ b.cap + 1 := hin; omega
  rw [hb]
  simp only [step, Verif.Jar.insert]
  rw [if_neg (by simp [h.ptr]), ← hip]
  by_cases h0 : ip < 0
  · rw [if_pos h0, if_neg (by omega)]
    exact ⟨_, _, rfl, rfl, h⟩
  rw [if_neg h0]
  have hsz := h.size; have hml := h.mem; have ht := h.top; have hf := h.fits
  obtain ⟨mem, hfill, hlen, hpre, hkeep⟩ : ∃ mem, (if ip.toNat > j.top then
        write j.mem (8 * j.top) (List.replicate (8 * (ip.toNat - j.top)) 0#8) else some j.mem) = some mem ∧
      mem.length = j.mem.length ∧
      mem.take (8 * ip.toNat) = b.data.take (8 * ip.toNat) ++ List.replicate (8 * ip.toNat - b.data.length) 0#8 ∧
      mem.take (8 * j.top) = b.data := by
    by_cases hg : ip.toNat > j.top
    · rw [if_pos hg]
      obtain ⟨m, m1, m2, m3, m4⟩ := write_spec j.mem (8 * j.top) (List.replicate (8 * (ip.toNat - j.top)) 0#8)
        (by rw [List.length_replicate]; omega)
      rw [List.length_replicate, show 8 * j.top + 8 * (ip.toNat - j.top) = 8 * ip.toNat by omega] at m3
      refine ⟨m, m1, m2, ?_, ?_⟩
      · rw [m3, h.data, List.take_of_length_le (by omega)]
        congr 2
        omega
      · rw [m4 _ (Nat.le_refl _), h.data]
    · rw [if_neg hg]
      refine ⟨_, rfl, rfl, ?_, h.data⟩
      rw [show 8 * ip.toNat - b.data.length = 0 by omega, List.replicate_zero, List.append_nil, ← h.data,
        List.take_take, Nat.min_eq_left (by omega)]
  rw [hfill]
  simp only [elems_eq]
  by_cases hc : ip.toNat + elems obj.length ≤ b.cap
  · rw [if_neg (by omega), if_pos ⟨by omega, hc⟩]
    obtain ⟨m, m1, m2, m3, -⟩ := write_spec mem (8 * ip.toNat)
      ((List.range (8 * elems obj.length)).map fun i => obj.getD i (junk i))
      (by rw [List.length_map, List.length_range]; omega)
    rw [m1]
    refine ⟨_, _, rfl, rfl, h.ptr, hsz, ?_, ?_, h.bot, ?_, ?_⟩
    · simp only [Box.insert, List.length_append, List.length_take, List.length_replicate, List.length_map, List.length_range]
      omega
    · simp only; omega
    · simp only; omega
    · simp only [Box.insert]
      rw [List.length_map, List.length_range] at m3
      rw [Nat.mul_add, m3, hpre]
  · rw [if_pos (by omega), if_neg (by rintro ⟨_, h⟩; exact hc h)]
    exact ⟨_, _, rfl, rfl, h.ptr, hsz, ht, hf, h.bot, by simp only; omega, hkeep⟩

theorem extract_R (j : Jar) (b : Box) (n : Nat) (pos : Option Int) (h : R j b) :
    ∃ j' o, step j (.extract n pos) = some (j', o) ∧ o = (b.step (.extract n pos)).2 ∧
      R j' (b.step (.extract n pos)).1 := by
  obtain ⟨ep, hep⟩ : ∃ ep : Int, ep = posOf pos b.next := ⟨_, rfl⟩
  have hb : b.step (.extract n pos) =
      if 0 ≤ ep ∧ 8 * (ep.toNat + elems n) ≤ b.data.length then
        ({ b with next := ep.toNat + elems n }, .bytes (some ((b.data.drop (8 * ep.toNat)).take n)))
      else (b, .bytes none) := by
    subst hep
    cases pos <;> rfl
  have hsz := h.size; have hml := h.mem; have ht := h.top; have hf := h.fits
  rw [hb]
  simp only [step, extract]
  rw [if_neg (by simp [h.ptr]), h.bot, ← hep]
  by_cases h0 : ep < 0
  · rw [if_pos h0, if_neg (by omega)]
    exact ⟨_, _, rfl, rfl, h⟩
  rw [if_neg h0]
  simp only [elems_eq]
  by_cases hc : ep.toNat + elems n > j.top
  · rw [if_pos hc, if_neg (by omega)]
    exact ⟨_, _, rfl, rfl, h⟩
  rw [if_neg hc, if_pos ⟨by omega, by omega⟩]
  have hn : 8 * (n / 8) ≤ n ∧ n ≤ 8 * elems n ∧ n < 8 * (n / 8) + 8 := by unfold elems; omega
  have hd : 8 * n / 64 = n / 8 := by omega
  rw [hd]
  have hr : ∀ off k, off + k ≤ 8 * j.top → Verif.Jar.read j.mem off k = some ((b.data.drop off).take k) := by
    intro off k hk
    unfold Verif.Jar.read
    rw [if_pos (by omega), ← h.data, List.drop_take, List.take_take, Nat.min_eq_left (by omega)]
  rw [hr _ _ (by omega)]
  simp only
  by_cases hu : elems n > n / 8
  · rw [if_pos hu, hr _ _ (by omega)]
    refine ⟨_, _, rfl, ?_, h.ptr, hsz, ht, hf, rfl, hml, h.data⟩
    simp only
    rw [show 8 * n / 8 - n / 8 * 8 = n - 8 * (n / 8) by omega, Nat.mul_comm (n / 8) 8]
    congr 2
    rw [← List.drop_drop, ← List.take_add]
    congr 1
    omega
  · rw [if_neg hu]
    refine ⟨_, _, rfl, ?_, h.ptr, hsz, ht, hf, rfl, hml, h.data⟩
    simp only
    rw [show 8 * (n / 8) = n by unfold elems at hu; omega]

theorem step_R (j : Jar) (b : Box) (o : Op) (h : R j b) (hin : Inside b.cap o) :
    ∃ j' r, step j o = some (j', r) ∧ r = (b.step o).2 ∧ R j' (b.step o).1 := by
  cases o with
  | insert obj junk pos => exact insert_R j b obj junk pos h hin
  | extract n pos => exact extract_R j b n pos h
  | reset => exact ⟨_, _, rfl, rfl, h.ptr, h.size, rfl, Nat.zero_le _, rfl, h.mem, rfl⟩

theorem step_cap (b : Box) (o : Op) : (b.step o).1.cap = b.cap := by
  cases o with
  | insert obj junk pos => cases pos <;> simp only [Box.step] <;> split <;> rfl
  | extract n pos => cases pos <;> simp only [Box.step] <;> split <;> rfl
  | reset => rfl

theorem run_R (ops : List Op) : ∀ (j : Jar) (b : Box), R j b → (∀ o ∈ ops, Inside b.cap o) →
    run j ops = some (b.run ops) := by
  induction ops with
  | nil => intro j b _ _; rfl
  | cons o os ih =>
    intro j b h hin
    obtain ⟨j', r, h1, h2, h3⟩ := step_R j b o h (hin o (List.mem_cons_self ..))
    simp only [run, h1, Box.run]
    rw [ih j' _ h3 (by intro x hx; rw [step_cap]; exact hin x (List.mem_cons_of_mem _ hx)), h2]
    rfl

theorem new_R (n : Nat) (f : Nat → Byte) : R (new empty n (some f)).1 ⟨n, [], 0⟩ :=
  ⟨rfl, rfl, rfl, Nat.zero_le _, rfl, by simp [new, empty], rfl⟩

theorem shape_R (a : List Byte) (h : a.length % 8 = 0) : R (shapeWith empty a).1 ⟨a.length / 8, a, 0⟩ := by
  have e : 8 * (a.length / 8) = a.length := by omega
  exact ⟨rfl, rfl, e, Nat.le_refl _, rfl, e.symm, by
    change a.take (8 * (a.length / 8)) = a
    exact List.take_of_length_le (by omega)⟩

/-- C44, with positions.  Whatever the order of inserts, extracts and resets, and whatever was in the memory, the
jar gives what the list of bytes gives: the values inserted, and refusals (which change nothing) exactly where
there is no room or nothing to read; memory outside of the jar is not touched.

Missing: inserts at a position more than one behind the end of the jar, by which the code writes outside of it
(`C44_overflow`). -/
theorem C44_positions_partial (n : Nat) (f : Nat → Byte) (ops : List Op) (h : ∀ o ∈ ops, Inside n o) :
    run (new empty n (some f)).1 ops = some ((Box.mk n [] 0).run ops) :=
  run_R ops _ _ (new_R n f) h

/-- The same for a jar made of an array: it starts full. -/
theorem C44_array_partial (a : List Byte) (ha : a.length % 8 = 0) (ops : List Op)
    (h : ∀ o ∈ ops, Inside (a.length / 8) o) :
    run (shapeWith empty a).1 ops = some ((Box.mk (a.length / 8) a 0).run ops) :=
  run_R ops _ _ (shape_R a ha) h

/-- The space up to the position is filled before the size is checked: outside of the jar, if it lies there. -/
theorem C44_overflow (j : Jar) (b : Box) (h : R j b) (obj : List Byte) (junk : Nat → Byte) (p : Int)
    (hp : ¬ Inside b.cap (.insert obj junk (some p))) : step j (.insert obj junk (some p)) = none := by
  have hp' : (b.cap : Int) + 1 < p := by
    simp only [Inside] at hp
    omega
  have hsz := h.size; have hml := h.mem; have hf := h.fits
  simp only [step, Verif.Jar.insert]
  rw [if_neg (by simp [h.ptr])]
  have e : posOf (some p) j.top = p - 1 := rfl
  rw [e, if_neg (by omega), if_pos (by omega)]
  unfold write
  rw [if_neg (by rw [List.length_replicate]; omega)]
  rfl

/-- A refused insert leaves the content but may clear memory behind it. -/
theorem C44_clear_witness :
    (step (reset (shapeWith empty ((List.range 16).map (BitVec.ofNat 8))).1)
      (.insert (List.replicate 16 1#8) (fun _ => 0#8) (some 2))).map (fun r => (r.1.mem, r.1.top)) =
    some (List.replicate 8 0#8 ++ (List.range 8).map (fun i => BitVec.ofNat 8 (i + 8)), 0) := by decide +kernel

/-! ### Without positions: a queue of objects -/

inductive QOp
  | put (obj : List Byte) (junk : Nat → Byte)
  | get (n : Nat)

def QOp.op : QOp → Op
  | .put o k => .insert o k none
  | .get n => .extract n none

/-- The queue, with the space used up so far. -/
structure Queue where
  cap : Nat
  used : Nat
  items : List (List Byte)

/-- Objects have to be asked for by their size. -/
def Fair (q : Queue) : QOp → Prop
  | .put _ _ => True
  | .get n => ∀ o ∈ q.items.head?, o.length = n

def Queue.step (q : Queue) : QOp → Queue × Out
  | .put o _ =>
    if q.used + elems o.length ≤ q.cap then (⟨q.cap, q.used + elems o.length, q.items ++ [o]⟩, .done true)
    else (q, .done false)
  | .get n =>
    match q.items with
    | o :: os => ({ q with items := os }, .bytes (some o))
    | [] => if n = 0 then (q, .bytes (some [])) else (q, .bytes none)

inductive FairRun : Queue → List QOp → List Out → Prop
  | nil (q) : FairRun q [] []
  | cons {q o os rs} : Fair q o → FairRun (q.step o).1 os rs → FairRun q (o :: os) ((q.step o).2 :: rs)

/-- `l` is the objects one behind the other, each filled up to whole elements. -/
def Layout : List (List Byte) → List Byte → Prop
  | [], l => l = []
  | o :: os, l => ∃ pad rest, l = o ++ pad ++ rest ∧ (o ++ pad).length = 8 * elems o.length ∧ Layout os rest

theorem layout_snoc (items : List (List Byte)) (o pad : List Byte) (h : (o ++ pad).length = 8 * elems o.length) :
    ∀ l, Layout items l → Layout (items ++ [o]) (l ++ (o ++ pad)) := by
  induction items with
  | nil =>
    intro l hl
    have : l = [] := hl
    subst this
    exact ⟨pad, [], by simp, h, rfl⟩
  | cons a t ih =>
    rintro l ⟨p, r, rfl, h1, h2⟩
    exact ⟨p, r ++ (o ++ pad), by simp, h1, ih r h2⟩

structure QR (b : Box) (q : Queue) : Prop where
  cap : b.cap = q.cap
  used : b.data.length = 8 * q.used
  next : 8 * b.next ≤ b.data.length
  layout : Layout q.items (b.data.drop (8 * b.next))

theorem range_getD (o : List Byte) (junk : Nat → Byte) (m : Nat) (h : o.length ≤ m) :
    (List.range m).map (fun i => o.getD i (junk i)) = o ++ (List.range' o.length (m - o.length)).map junk := by
  apply List.ext_getElem
  · simp; omega
  · intro i h1 h2
    simp only [List.getElem_map, List.getElem_range]
    by_cases hi : i < o.length
    · rw [List.getElem_append_left hi, List.getD_eq_getElem _ _ hi]
    · rw [List.getElem_append_right (by omega), List.getD_eq_default _ _ (by omega)]
      simp
      congr 1
      omega

theorem queue_step (b : Box) (q : Queue) (o : QOp) (h : QR b q) (hf : Fair q o) :
    (b.step o.op).2 = (q.step o).2 ∧ QR (b.step o.op).1 (q.step o).1 := by
  have hu := h.used; have hc := h.cap; have hn := h.next
  cases o with
  | put o k =>
    simp only [QOp.op, Box.step, Queue.step]
    by_cases hfit : q.used + elems o.length ≤ q.cap
    · rw [if_pos (by omega), if_pos hfit]
      have hel : o.length ≤ 8 * elems o.length := by unfold elems; omega
      have e : (b.insert o k (b.data.length / 8)).data =
          b.data ++ (o ++ (List.range' o.length (8 * elems o.length - o.length)).map k) := by
        simp only [Box.insert]
        rw [range_getD _ _ _ hel, show 8 * (b.data.length / 8) = b.data.length by omega, List.take_of_length_le (Nat.le_refl _),
          Nat.sub_self, List.replicate_zero, List.append_nil]
      refine ⟨rfl, hc, ?_, ?_, ?_⟩
      · rw [e]; simp; omega
      · rw [e]; simp [Box.insert]; omega
      · rw [e]
        simp only [Box.insert]
        rw [List.drop_append_of_le_length hn]
        apply layout_snoc _ _ _ _ _ h.layout
        simp; omega
    · rw [if_neg (by omega), if_neg hfit]
      exact ⟨rfl, h⟩
  | get n =>
    simp only [QOp.op, Box.step, Queue.step, Int.toNat_natCast]
    have hl := h.layout
    cases hi : q.items with
    | nil =>
      rw [hi] at hl
      have hl' : b.data.drop (8 * b.next) = [] := hl
      have hend : b.data.length = 8 * b.next := by
        have := List.drop_eq_nil_iff.1 hl'
        omega
      by_cases h0 : n = 0
      · subst h0
        rw [if_pos ⟨by omega, by simp [elems]; omega⟩]
        simp only [if_true]
        refine ⟨by rw [List.take_zero], hc, hu, ?_, ?_⟩
        · simpa [elems] using hn
        · rw [hi]; simp only [elems]; exact hl'
      · have : 0 < elems n := by unfold elems; omega
        rw [if_neg (by omega)]
        simp only [if_neg h0]
        exact ⟨trivial, h⟩
    | cons o os =>
      rw [hi] at hl
      obtain ⟨pad, rest, e, hlen, hrest⟩ := hl
      have hno : o.length = n := hf o (by rw [hi]; rfl)
      have hlen' := congrArg List.length e
      rw [List.length_drop, List.length_append, hlen, hno] at hlen'
      rw [if_pos ⟨by omega, by omega⟩]
      refine ⟨?_, hc, hu, ?_, ?_⟩
      · simp only
        rw [e, List.append_assoc, ← hno, List.take_left]
      · simp only; omega
      · simp only
        rw [Nat.mul_add, ← List.drop_drop, e, ← hno, ← hlen, List.drop_left]
        exact hrest

theorem queue_run {q : Queue} {ops : List QOp} {rs : List Out} (h : FairRun q ops rs) :
    ∀ b : Box, QR b q → b.run (ops.map QOp.op) = rs := by
  induction h with
  | nil q => intro b _; rfl
  | cons hf _ ih =>
    intro b hb
    obtain ⟨h1, h2⟩ := queue_step b _ _ hb hf
    simp only [List.map_cons, Box.run, h1, ih _ h2]

/-- C44.  Without positions a jar is a queue of objects: whatever the mixture of inserts and extracts, objects come
out in the order inserted and with the bytes inserted, when they are asked for by their size; an insert succeeds as
long as the capacity is not used up, and an extract fails exactly when the queue is empty. -/
theorem C44_fifo (n : Nat) (f : Nat → Byte) (ops : List QOp) (rs : List Out) (h : FairRun ⟨n, 0, []⟩ ops rs) :
    run (new empty n (some f)).1 (ops.map QOp.op) = some rs := by
  rw [C44_positions_partial n f _ (by
    intro o ho
    obtain ⟨q, -, rfl⟩ := List.mem_map.1 ho
    cases q <;> exact trivial)]
  rw [queue_run h ⟨n, [], 0⟩ ⟨rfl, rfl, Nat.zero_le _, rfl⟩]

/-- Three objects of 3, 8 and 9 bytes in a jar of 4 elements; a fourth does not fit. -/
example : ∃ rs, FairRun ⟨4, 0, []⟩ [.put [1, 2, 3] (fun _ => 7), .put (List.replicate 8 5) (fun _ => 7), .get 3,
    .put (List.replicate 9 6) (fun _ => 0), .put [1] (fun _ => 0), .get 8, .get 9, .get 1] rs ∧
    rs = [.done true, .done true, .bytes (some [1, 2, 3]), .done true, .done false, .bytes (some (List.replicate 8 5)),
      .bytes (some (List.replicate 9 6)), .bytes none] := by
  refine ⟨_, ?_, rfl⟩
  iterate 8 refine FairRun.cons (by simp [Fair, Queue.step, elems]) ?_
  exact .nil _

/-- Overwriting in the middle cuts the jar; reading at a position moves the next one. -/
example : (Box.mk 4 [] 0).run [.insert [1, 2, 3, 4, 5, 6, 7, 8, 9] (fun _ => 0) none, .insert [7] (fun _ => 9) (some 1),
    .extract 9 none, .extract 2 none, .insert [5] (fun _ => 9) (some 4), .extract 1 (some 4), .extract 1 (some 5),
    .extract 8 (some 2), .insert [5] (fun _ => 9) (some 5)] =
    [.done true, .done true, .bytes none, .bytes (some [7, 9]), .done true, .bytes (some [5]), .bytes none,
      .bytes (some (List.replicate 8 0)), .done false] := by
  rfl

end Props.Jar
