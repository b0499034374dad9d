import Verif.Bits

/-! # Model of the token stream macros `stuff` and `extract`

Code: `/repo/include/bitPacking.h`.  Words are 32 bits wide (`wordSize` is always 32 at the call
sites modelled here).  `none` stands for undefined behaviour: an access outside the array or a shift
count outside 0..31. -/

namespace Verif

/-- Writer registers: the array being filled, `availableWordPtr` (as an index), `lastWordShifted`
and `spaceInLastWord`.  (`include/bitPacking.h` 113-139.) -/
structure Writer where
  mem : List W
  ptr : Nat
  last : W
  space : Nat
deriving Repr, DecidableEq

/-- `*p = v` for an index `p`; `none` when out of bounds. -/
def store (mem : List W) (p : Nat) (v : W) : Option (List W) :=
  if p < mem.length then some (mem.set p v) else none

/-- `include/bitPacking.h` 126-139, macro `stuff`.  The mask `-1 >> k` of line 134 is an arithmetic
shift of the `int` -1 and equals -1, so it keeps every bit of the token. -/
def stuff (tok : W) (bits : Nat) (s : Writer) : Option Writer :=
  if bits ≤ s.space then
    if bits < 32 then
      some { s with last := (s.last <<< bits) ||| tok, space := s.space - bits }
    else none
  else
    let r := bits - s.space
    if s.space < 32 ∧ r < 32 then
      match store s.mem s.ptr ((s.last <<< s.space) ||| (tok >>> r)) with
      | none => none
      | some m => some { mem := m, ptr := s.ptr + 1, last := tok &&& (-1#32), space := 32 - r }
    else none

/-- Reader registers: `packedWordPtr` (as an index), `packedWord`, `bitPackInWord`. -/
structure Reader where
  ptr : Nat
  word : W
  avail : Nat
deriving Repr, DecidableEq

/-- Result of `x << n` on 32-bit words; `u` is what the machine gives when the count is 32
(undefined in C).  Theorems quantify over `u`: the value is never used. -/
def shlU (u : W) (x : W) (n : Nat) : W := if n < 32 then x <<< n else u

/-- `include/bitPacking.h` 74-78: reload of an exhausted word. -/
def reload (mem : List W) (s : Reader) : Option Reader :=
  if s.avail = 0 then
    match mem[s.ptr + 1]? with
    | none => none
    | some w => some { ptr := s.ptr + 1, word := w, avail := 32 }
  else some s

/-- `include/bitPacking.h` 59-79, macro `extract`, for token sizes 1..32 (size 0 shifts by 32). -/
def extract (u : W) (mem : List W) (size : Nat) (s : Reader) : Option (W × Reader) :=
  if size = 0 ∨ 32 < size then none
  else if size ≤ s.avail then
    let tok := s.word >>> (32 - size)
    (reload mem { s with word := shlU u s.word size, avail := s.avail - size }).map (tok, ·)
  else
    match mem[s.ptr + 1]? with
    | none => none
    | some w =>
      let r := size - s.avail
      let tok := (s.word >>> (32 - size)) ||| (w >>> (32 - r))
      (reload mem { ptr := s.ptr + 1, word := shlU u w r, avail := 32 - r }).map (tok, ·)

/-! ## What the registers mean -/

/-- The bits written so far. -/
def Writer.bits (s : Writer) : List Bool :=
  memBits (s.mem.take s.ptr) ++ toBits (32 - s.space) s.last.toNat

/-- Number of bits written so far, counted from the beginning of the array. -/
def Writer.pos (s : Writer) : Nat := 32 * s.ptr + (32 - s.space)

structure Writer.WF (s : Writer) : Prop where
  space : s.space ≤ 32
  ptr : s.ptr ≤ s.mem.length

/-- The bits still to be read. -/
def Reader.bits (mem : List W) (s : Reader) : List Bool :=
  toBits s.avail (s.word.toNat >>> (32 - s.avail)) ++ memBits (mem.drop (s.ptr + 1))

structure Reader.WF (s : Reader) : Prop where
  avail_pos : 0 < s.avail
  avail_le : s.avail ≤ 32
  low_zero : ∀ i, i < 32 - s.avail → s.word.toNat.testBit i = false

theorem store_eq {mem m : List W} {p : Nat} {v : W} (h : store mem p v = some m) :
    p < mem.length ∧ m = mem.set p v := by
  unfold store at h
  split at h
  · exact ⟨‹_›, by simpa using h.symm⟩
  · cases h

theorem take_set_succ (mem : List W) (p : Nat) (v : W) (h : p < mem.length) :
    (mem.set p v).take (p + 1) = mem.take p ++ [v] := by
  rw [List.take_add_one]
  simp [h]
  rw [List.take_set_of_le (by omega)]

/-- `stuff` appends exactly the bits of the token, and changes the array only at the current word. -/
theorem stuff_spec {tok : W} {bits : Nat} {s : Writer} (wf : s.WF)
    (hb : bits ≤ 32) (ht : tok.toNat < 2 ^ bits)
    (h32 : bits = 32 → 0 < s.space ∧ s.space < 32)
    (room : s.space < bits → s.ptr < s.mem.length) :
    ∃ s', stuff tok bits s = some s' ∧ s'.WF ∧ s'.bits = s.bits ++ toBits bits tok.toNat ∧
      s'.pos = s.pos + bits ∧ s'.mem.length = s.mem.length ∧
      (∀ j, s'.ptr ≤ j → s'.mem[j]? = s.mem[j]?) ∧
      (s.space < bits → s'.space < 32) ∧ (bits ≤ s.space → s'.space = s.space - bits ∧ s'.ptr = s.ptr) := by
  have htb : ∀ i, bits ≤ i → tok.getLsbD i = false := fun i hi =>
    (BitVec.testBit_toNat tok).symm.trans <| Nat.testBit_lt_two_pow (Nat.lt_of_lt_of_le ht (Nat.pow_le_pow_right (by decide) hi))
  obtain ⟨wf1, wf2⟩ := wf
  unfold stuff
  by_cases c : bits ≤ s.space
  · have hlt : bits < 32 := by
      rcases Nat.lt_or_ge bits 32 with h | h
      · exact h
      · have := h32 (by omega); omega
    rw [if_pos c, if_pos hlt]
    refine ⟨_, rfl, ⟨by simp; omega, wf2⟩, ?_, ?_, rfl, fun _ _ => rfl, by omega, fun _ => ⟨rfl, rfl⟩⟩
    · simp only [Writer.bits]
      rw [List.append_assoc]
      congr 1
      rw [show 32 - (s.space - bits) = (32 - s.space) + bits by omega, toBits_append]
      congr 1
      · apply toBits_ext
        intro i hi
        simp [Nat.testBit_shiftRight, BitVec.testBit_toNat, -BitVec.toNat_or, htb (bits + i) (by omega)]
        omega
      · apply toBits_ext
        intro i hi
        simp [BitVec.testBit_toNat, -BitVec.toNat_or, hi]
    · simp only [Writer.pos]; omega
  · have c' : s.space < bits := by omega
    have hr : bits - s.space < 32 := by
      rcases Nat.lt_or_ge bits 32 with h | h
      · omega
      · have := h32 (by omega); omega
    have hp := room c'
    rw [if_neg c]
    simp only [store, hp, if_true]
    rw [if_pos ⟨by omega, hr⟩]
    refine ⟨_, rfl, ⟨by simp, by simp; omega⟩, ?_, ?_, by simp, ?_, by intro; simp; omega, by intro; omega⟩
    · simp only [Writer.bits]
      rw [take_set_succ _ _ _ hp, memBits_append, List.append_assoc, List.append_assoc]
      congr 1
      simp only [memBits_cons, memBits_nil, List.append_nil]
      rw [show toBits 32 = toBits ((32 - s.space) + s.space) by congr 1; omega, toBits_append,
        List.append_assoc]
      congr 1
      · apply toBits_ext
        intro i hi
        simp [Nat.testBit_shiftRight, BitVec.testBit_toNat, -BitVec.toNat_or,
          htb (bits - s.space + (s.space + i)) (by omega)]
        omega
      · have e : bits = s.space + (bits - s.space) := by omega
        conv => rhs; rw [e, toBits_append]
        congr 1
        · apply toBits_ext
          intro i hi
          simp [Nat.testBit_shiftRight, BitVec.testBit_toNat, -BitVec.toNat_or, hi]
        · rw [show 32 - (32 - (bits - s.space)) = bits - s.space by omega]
          apply toBits_ext
          intro i hi
          have : (-1#32 : W) = BitVec.allOnes 32 := by decide
          rw [this, BitVec.and_allOnes]
    · simp only [Writer.pos]; omega
    · intro j hj
      simp only at hj
      rw [List.getElem?_set_ne (by omega)]

@[simp] theorem Reader.bits_length (mem : List W) (s : Reader) :
    (s.bits mem).length = s.avail + 32 * (mem.length - (s.ptr + 1)) := by
  simp [Reader.bits]

theorem drop_eq_cons {mem : List W} {p : Nat} {w : W} (h : mem[p]? = some w) :
    mem.drop p = w :: mem.drop (p + 1) := by
  obtain ⟨hp, rfl⟩ := List.getElem?_eq_some_iff.1 h
  exact List.drop_eq_getElem_cons hp

/-- `extract` takes exactly the leading `size` bits, provided one further bit (hence one further
word, if the token ends a word) exists. -/
theorem extract_spec {u : W} {mem : List W} {size : Nat} {s : Reader} (wf : s.WF)
    (h1 : 1 ≤ size) (h2 : size ≤ 32) (room : size < (s.bits mem).length) :
    ∃ tok s', extract u mem size s = some (tok, s') ∧ s'.WF ∧ tok.toNat < 2 ^ size ∧
      s.bits mem = toBits size tok.toNat ++ s'.bits mem := by
  obtain ⟨a0, a32, lz⟩ := wf
  rw [Reader.bits_length] at room
  have lz' : ∀ i, i < 32 - s.avail → s.word.getLsbD i = false := fun i hi =>
    (BitVec.testBit_toNat s.word).symm.trans (lz i hi)
  unfold extract
  rw [if_neg (by omega)]
  have tlt : (s.word >>> (32 - size)).toNat < 2 ^ size := by
    apply Nat.lt_pow_two_of_testBit
    intro i hi
    simp [BitVec.testBit_toNat, -BitVec.toNat_ushiftRight]
    exact BitVec.getLsbD_of_ge _ _ (by omega)
  by_cases c : size ≤ s.avail
  · rw [if_pos c]
    by_cases e : s.avail = size
    · -- the word is exhausted: reload
      have hlt : s.ptr + 1 < mem.length := by omega
      have hg : mem[s.ptr + 1]? = some mem[s.ptr + 1] := List.getElem?_eq_getElem hlt
      refine ⟨s.word >>> (32 - size), ⟨s.ptr + 1, mem[s.ptr + 1], 32⟩, ?_, ⟨by simp, by simp, by simp⟩, tlt, ?_⟩
      · simp [reload, e]
        simp [hg]
      · simp only [Reader.bits]
        rw [drop_eq_cons hg, memBits_cons, e]
        simp
    · refine ⟨s.word >>> (32 - size), ⟨s.ptr, shlU u s.word size, s.avail - size⟩, ?_,
        ⟨by simp; omega, by simp; omega, ?_⟩, tlt, ?_⟩
      · simp [reload]
        intro; omega
      · intro i hi
        simp at hi
        have : size < 32 := by omega
        simp [shlU, this, BitVec.testBit_toNat, -BitVec.toNat_shiftLeft]
        intro _ _
        exact lz' _ (by omega)
      · simp only [Reader.bits]
        rw [← List.append_assoc]
        congr 1
        have : size < 32 := by omega
        conv => lhs; rw [show s.avail = size + (s.avail - size) by omega, toBits_append]
        congr 1
        · apply toBits_ext
          intro i hi
          simp [Nat.testBit_shiftRight, BitVec.testBit_toNat]
          congr 1; omega
        · apply toBits_ext
          intro i hi
          simp [shlU, this, Nat.testBit_shiftRight, BitVec.testBit_toNat, -BitVec.toNat_shiftLeft]
          rw [show 32 - (size + (s.avail - size)) + i = 32 - (s.avail - size) + i - size by omega]
          have h3 : 32 - (s.avail - size) + i < 32 := by omega
          have h4 : ¬ (32 - (s.avail - size) + i < size) := by omega
          simp [h3, h4]
  · rw [if_neg c]
    have hlt : s.ptr + 1 < mem.length := by omega
    have hg : mem[s.ptr + 1]? = some mem[s.ptr + 1] := List.getElem?_eq_getElem hlt
    rw [hg]
    generalize mem[s.ptr + 1] = w at hg
    have hr : size - s.avail < 32 := by omega
    refine ⟨(s.word >>> (32 - size)) ||| (w >>> (32 - (size - s.avail))),
      ⟨s.ptr + 1, shlU u w (size - s.avail), 32 - (size - s.avail)⟩, ?_,
      ⟨by simp; omega, by simp, ?_⟩, ?_, ?_⟩
    · simp [reload]
      intro; omega
    · intro i hi
      simp at hi
      simp [shlU, hr, BitVec.testBit_toNat, -BitVec.toNat_shiftLeft]
      intro _ _; omega
    · apply Nat.lt_pow_two_of_testBit
      intro i hi
      simp [BitVec.testBit_toNat, -BitVec.toNat_or]
      exact ⟨BitVec.getLsbD_of_ge _ _ (by omega), BitVec.getLsbD_of_ge _ _ (by omega)⟩
    · simp only [Reader.bits]
      rw [drop_eq_cons hg, memBits_cons, ← List.append_assoc, ← List.append_assoc]
      congr 1
      conv => rhs; lhs; rw [show size = s.avail + (size - s.avail) by omega, toBits_append]
      rw [List.append_assoc]
      congr 1
      · apply toBits_ext
        intro i hi
        simp [Nat.testBit_shiftRight, BitVec.testBit_toNat, -BitVec.toNat_or]
        rw [show 32 - (s.avail + (size - s.avail)) + (size - s.avail + i) = 32 - s.avail + i by omega]
        rw [BitVec.getLsbD_of_ge w _ (by omega)]; simp
      · rw [show toBits 32 = toBits ((size - s.avail) + (32 - (size - s.avail))) by congr 1; omega, toBits_append]
        congr 1
        · apply toBits_ext
          intro i hi
          simp [Nat.testBit_shiftRight, BitVec.testBit_toNat, -BitVec.toNat_or]
          rw [lz' _ (by omega)]
          simp
        · apply toBits_ext
          intro i hi
          simp [shlU, hr, Nat.testBit_shiftRight, BitVec.testBit_toNat, -BitVec.toNat_shiftLeft]
          have h4 : ¬ (32 - (32 - (size - s.avail)) + i < (size - s.avail)) := by omega
          have h3 : 32 - (32 - (size - s.avail)) + i < 32 := by omega
          simp [h3, h4]
          congr 1; omega

end Verif
