import Verif.BitStream

/-! # Model of `src/primitives/f_bit_slicer.c`

Arrays are lists of 32-bit words.  A read or a write outside the array yields `none`.  A left shift
of a negative `int` (`-1 << k`) is given its usual two's complement meaning. -/

namespace Verif.BitSlicer

/-- `if(current > 32) current=32; if(current <= 0)` (f_bit_slicer.c:56-57 and 92-93): the number of
bits effectively handled for a requested width. -/
def width (w : Int) : Nat := if w > 32 then 32 else if w ≤ 0 then 0 else w.toNat

/-- Local variables of `f_bits_get` (f_bit_slicer.c:47-49): `rest` is the array from `bit_array` on. -/
structure Get where
  rest : List W
  left : Nat
  mybits : W

/-- Refill of the reservoir when it is empty (f_bit_slicer.c:55). -/
def refill (s : Get) : Option Get :=
  if s.left = 0 then
    match s.rest with
    | [] => none
    | w :: r => some { rest := r, left := 32, mybits := w }
  else some s

/-- The mask `-1 << (32-n)` (f_bit_slicer.c:62, 68, 74, 98, 103, 109). -/
def topMask (n : Nat) : W := BitVec.allOnes 32 <<< (32 - n)

/-- One pass through the loop of `f_bits_get` (f_bit_slicer.c:51-80). -/
def getSlice (w : Int) (s : Get) : Option (W × Get) := do
  let s ← refill s
  let current := width w
  if current = 0 then some (0, s)
  else if current = 32 ∧ s.left = 32 then
    match s.rest with
    | [] => none
    | t :: r => some (t, { s with rest := r })
  else if s.left ≥ current then
    some ((topMask current &&& s.mybits) >>> (32 - current),
      { s with left := s.left - current, mybits := s.mybits <<< current })
  else
    let first := (topMask s.left &&& s.mybits) >>> (32 - s.left)
    let current := current - s.left
    match s.rest with
    | [] => none
    | m :: r =>
      let temp := (topMask current &&& m) >>> (32 - current)
      some ((first <<< current) ||| temp, { rest := r, left := 32 - current, mybits := m <<< current })

/-- The loop of `f_bits_get` (f_bit_slicer.c:51-81). -/
def getLoop : List Int → Get → Option (List W)
  | [], _ => some []
  | w :: ws, s => do
    let (t, s) ← getSlice w s
    let ts ← getLoop ws s
    some (t :: ts)

/-- `f_bits_get` (f_bit_slicer.c:45-82).  `junk` is the uninitialised value of `mybits`. -/
def fBitsGet (junk : W) (bits : List W) (ws : List Int) : Option (List W) :=
  getLoop ws { rest := bits, left := 0, mybits := junk }

/-- Local variables of `f_bits_put` (f_bit_slicer.c:85-87). -/
structure Put where
  mem : List W
  ptr : Nat
  left : Nat
  mybits : W

/-- `*bit_array++ = v`. -/
def Put.push (s : Put) (v : W) : Option Put := do
  let m ← store s.mem s.ptr v
  some { s with mem := m, ptr := s.ptr + 1 }

/-- The insertion of one slice in `f_bits_put` (f_bit_slicer.c:92-113), before the final test on `left`. -/
def putSlice (w : Int) (v : W) (s : Put) : Option Put :=
  let current := width w
  if current = 0 then some s
  else if current = 32 ∧ s.left = 32 then s.push v
  else if s.left ≥ current then
    let temp := (topMask current >>> (32 - current)) &&& v
    some { s with left := s.left - current, mybits := (s.mybits <<< current) ||| temp }
  else do
    let temp := (topMask s.left >>> (32 - s.left)) &&& (v.sshiftRight (current - s.left))
    let s' ← s.push ((s.mybits <<< s.left) ||| temp)
    let current := current - s.left
    some { s' with left := 32 - current, mybits := (topMask current >>> (32 - current)) &&& v }

/-- `if(left==0) { *bit_array++ = mybits; left=32 ; mybits=0 ; }` (f_bit_slicer.c:114). -/
def putFlush (s : Put) : Option Put :=
  if s.left = 0 then do
    let s ← s.push s.mybits
    some { s with left := 32, mybits := 0 }
  else some s

/-- The loop of `f_bits_put` (f_bit_slicer.c:89-116). -/
def putLoop : List (Int × W) → Put → Option Put
  | [], s => some s
  | (w, v) :: l, s => do
    let s ← putSlice w v s
    let s ← putFlush s
    putLoop l s

/-- `f_bits_put` (f_bit_slicer.c:83-118). -/
def fBitsPut (dst : List W) (slices : List (Int × W)) : Option (List W) := do
  let s ← putLoop slices { mem := dst, ptr := 0, left := 32, mybits := 0 }
  if s.left < 32 then store s.mem s.ptr (s.mybits <<< s.left) else some s.mem

/-! ## Lemmas -/

theorem width_le (w : Int) : width w ≤ 32 := by unfold width; split <;> (try split) <;> omega

theorem top_extract (x : W) {c : Nat} (h2 : c ≤ 32) :
    ((topMask c &&& x) >>> (32 - c)).toNat = x.toNat >>> (32 - c) := by
  have : (topMask c &&& x) >>> (32 - c) = x >>> (32 - c) := by
    ext i hi
    simp only [BitVec.getElem_ushiftRight, topMask, BitVec.getLsbD_and, BitVec.getLsbD_shiftLeft,
      BitVec.getLsbD_allOnes]
    by_cases h : 32 - c + i < 32
    · simp [h]; omega
    · have : x.getLsbD (32 - c + i) = false := BitVec.getLsbD_of_ge _ _ (by omega)
      simp [this]
  rw [this, BitVec.toNat_ushiftRight]

theorem low_mask (x : W) {c : Nat} (h2 : c ≤ 32) (i : Nat) :
    ((topMask c >>> (32 - c)) &&& x).getLsbD i = (decide (i < c) && x.getLsbD i) := by
  simp only [topMask, BitVec.getLsbD_and, BitVec.getLsbD_ushiftRight, BitVec.getLsbD_shiftLeft,
    BitVec.getLsbD_allOnes]
  by_cases h : i < c
  · have : 32 - c + i < 32 := by omega
    simp [h, this]; omega
  · simp [h]; omega

/-- Unread bits. -/
def Get.bits (s : Get) : List Bool := toBits s.left (s.mybits.toNat >>> (32 - s.left)) ++ memBits s.rest

theorem getBits_take (m : W) {l c : Nat} (hl : l ≤ 32) (hc : c ≤ l) :
    toBits l (m.toNat >>> (32 - l)) =
      toBits c (m.toNat >>> (32 - c)) ++ toBits (l - c) ((m <<< c).toNat >>> (32 - (l - c))) := by
  obtain ⟨k, rfl⟩ : ∃ k, l = c + k := ⟨l - c, by omega⟩
  rw [toBits_append, ← Nat.shiftRight_add]
  congr 1
  · congr 2; omega
  · rw [show c + k - c = k by omega]
    apply toBits_ext
    intro i hi
    rw [Nat.testBit_shiftRight, Nat.testBit_shiftRight, BitVec.testBit_toNat, BitVec.testBit_toNat,
      BitVec.getLsbD_shiftLeft]
    have h1 : 32 - k + i < 32 := by omega
    have h2 : ¬ 32 - k + i < c := by omega
    simp only [h1, h2, decide_true, decide_false, Bool.not_false, Bool.true_and]
    congr 1; omega

theorem shiftRight_lt (m : W) {c : Nat} (hc : c ≤ 32) : m.toNat >>> (32 - c) < 2 ^ c := by
  rw [Nat.shiftRight_eq_div_pow]
  apply Nat.div_lt_of_lt_mul
  rw [← Nat.pow_add, show 32 - c + c = 32 by omega]
  exact m.isLt

theorem refill_spec {s : Get} (hl : s.left ≤ 32) (hne : s.bits ≠ []) :
    ∃ s', refill s = some s' ∧ 1 ≤ s'.left ∧ s'.left ≤ 32 ∧ s'.bits = s.bits := by
  unfold refill
  by_cases h : s.left = 0
  · rw [if_pos h]
    cases hr : s.rest with
    | nil => simp [Get.bits, h, hr] at hne
    | cons w r => exact ⟨_, rfl, by simp, by simp, by simp [Get.bits, h, hr]⟩
  · rw [if_neg h]; exact ⟨s, rfl, by omega, hl, rfl⟩

theorem getSlice_spec {s : Get} {w : Int} (hl : s.left ≤ 32) (hne : s.bits ≠ [])
    (hlen : width w ≤ s.bits.length) (h32 : width w = 32 → s.bits.length % 32 ≠ 0) :
    ∃ t s', getSlice w s = some (t, s') ∧ s'.left ≤ 32 ∧ t.toNat < 2 ^ width w ∧
      s.bits = toBits (width w) t.toNat ++ s'.bits := by
  obtain ⟨s1, e1, l1, l2, hb⟩ := refill_spec hl hne
  rw [← hb] at hlen h32 hne ⊢
  simp only [getSlice, e1, Option.bind_eq_bind, Option.bind_some]
  have hw := width_le w
  generalize width w = c at hlen h32 hw
  by_cases hc : c = 0
  · subst hc
    exact ⟨0, s1, by simp, l2, by simp, by simp⟩
  rw [if_neg hc]
  have hmod : s1.bits.length % 32 = s1.left % 32 := by
    simp only [Get.bits, List.length_append, toBits_length, memBits_length]; omega
  rw [if_neg (by rintro ⟨a, b⟩; have := h32 a; omega)]
  by_cases hle : s1.left ≥ c
  · rw [if_pos hle]
    refine ⟨_, _, rfl, by simp; omega, ?_, ?_⟩
    · rw [top_extract _ hw]; exact shiftRight_lt _ hw
    · rw [top_extract _ hw]
      simp only [Get.bits]
      rw [getBits_take s1.mybits l2 hle, List.append_assoc]
  · rw [if_neg hle]
    cases hr : s1.rest with
    | nil => simp [Get.bits, hr] at hlen; omega
    | cons m r =>
      simp only
      have hfb : (topMask s1.left &&& s1.mybits) >>> (32 - s1.left) = s1.mybits >>> (32 - s1.left) := by
        apply BitVec.eq_of_toNat_eq
        rw [top_extract _ l2, BitVec.toNat_ushiftRight]
      have hsb : (topMask (c - s1.left) &&& m) >>> (32 - (c - s1.left)) = m >>> (32 - (c - s1.left)) := by
        apply BitVec.eq_of_toNat_eq
        rw [top_extract _ (by omega), BitVec.toNat_ushiftRight]
      refine ⟨_, _, rfl, by simp, ?_, ?_⟩
      · rw [hfb, hsb]
        apply Nat.lt_pow_two_of_testBit
        intro i hi
        rw [BitVec.testBit_toNat, BitVec.getLsbD_or, BitVec.getLsbD_shiftLeft, BitVec.getLsbD_ushiftRight,
          BitVec.getLsbD_ushiftRight, BitVec.getLsbD_of_ge _ (32 - s1.left + (i - (c - s1.left))) (by omega),
          BitVec.getLsbD_of_ge _ (32 - (c - s1.left) + i) (by omega)]
        simp
      · rw [hfb, hsb]
        simp only [Get.bits, hr, memBits_cons]
        have h32b : toBits 32 m.toNat = toBits 32 (m.toNat >>> (32 - 32)) := by simp
        rw [h32b, getBits_take m (l := 32) (c := c - s1.left) (by omega) (by omega)]
        rw [← List.append_assoc, ← List.append_assoc, ← List.append_assoc]
        congr 2
        rw [show c = s1.left + (c - s1.left) by omega, toBits_append]
        rw [show s1.left + (c - s1.left) - s1.left = c - s1.left by omega]
        congr 1
        · apply toBits_ext
          intro i hi
          rw [Nat.testBit_shiftRight, Nat.testBit_shiftRight, BitVec.testBit_toNat, BitVec.testBit_toNat,
            BitVec.getLsbD_or, BitVec.getLsbD_shiftLeft, BitVec.getLsbD_ushiftRight, BitVec.getLsbD_ushiftRight,
            BitVec.getLsbD_of_ge m _ (by omega)]
          have a1 : c - s1.left + i < 32 := by omega
          have a2 : ¬ c - s1.left + i < c - s1.left := by omega
          simp only [a1, a2, decide_true, decide_false, Bool.not_false, Bool.true_and, Bool.or_false]
          congr 1; omega
        · apply toBits_ext
          intro i hi
          rw [Nat.testBit_shiftRight, BitVec.testBit_toNat, BitVec.testBit_toNat,
            BitVec.getLsbD_or, BitVec.getLsbD_shiftLeft, BitVec.getLsbD_ushiftRight, BitVec.getLsbD_ushiftRight]
          simp [hi]

/-- Bits stored by `f_bits_put`. -/
def Put.bits (s : Put) : List Bool := memBits (s.mem.take s.ptr) ++ toBits (32 - s.left) s.mybits.toNat

theorem push_spec {s : Put} (h : s.ptr < s.mem.length) (v : W) :
    ∃ s', s.push v = some s' ∧ s'.mem = s.mem.set s.ptr v ∧ s'.ptr = s.ptr + 1 ∧ s'.left = s.left ∧
      s'.mybits = s.mybits ∧ s'.mem.length = s.mem.length ∧
      memBits (s'.mem.take s'.ptr) = memBits (s.mem.take s.ptr) ++ toBits 32 v.toNat ∧
      s'.mem.drop s'.ptr = s.mem.drop (s.ptr + 1) := by
  refine ⟨{ s with mem := s.mem.set s.ptr v, ptr := s.ptr + 1 }, ?_, rfl, rfl, rfl, rfl, by simp, ?_, ?_⟩
  · simp [Put.push, store, h]
  · simp only
    rw [take_set_succ _ _ _ h]; simp
  · simp only
    rw [List.drop_set_of_lt (by omega)]

/-- The slice as stored. -/
theorem putSlice_spec {s : Put} {w : Int} {v : W} (hl1 : 1 ≤ s.left) (hl : s.left ≤ 32)
    (room : s.bits.length + width w ≤ 32 * s.mem.length) (hp : s.ptr ≤ s.mem.length) :
    ∃ s', putSlice w v s = some s' ∧ s'.left ≤ 32 ∧ s'.bits = s.bits ++ toBits (width w) v.toNat ∧
      s'.mem.length = s.mem.length ∧ s'.ptr ≤ s.mem.length ∧ s.ptr ≤ s'.ptr ∧
      s'.mem.drop s'.ptr = s.mem.drop s'.ptr := by
  have hw := width_le w
  simp only [putSlice]
  generalize width w = c at room hw
  simp only [Put.bits, List.length_append, memBits_length, toBits_length, List.length_take, Nat.min_eq_left hp] at room
  by_cases hc : c = 0
  · subst hc; exact ⟨s, by simp, hl, by simp, rfl, hp, Nat.le_refl _, rfl⟩
  rw [if_neg hc]
  by_cases h32 : c = 32 ∧ s.left = 32
  · rw [if_pos h32]
    obtain ⟨s', e, _, p, l, m, ml, b, d⟩ := push_spec (s := s) (by omega) v
    refine ⟨s', e, by omega, ?_, ml, by omega, by omega, by rw [d, p]⟩
    simp only [Put.bits]
    rw [b, l, h32.2, h32.1]; simp
  rw [if_neg h32]
  have key : ∀ (m : W) (a c : Nat), a + c ≤ 32 → c ≤ 31 →
      toBits (a + c) ((m <<< c) ||| ((topMask c >>> (32 - c)) &&& v)).toNat = toBits a m.toNat ++ toBits c v.toNat := by
    intro m a c hac hc31
    rw [toBits_append]
    congr 1
    · apply toBits_ext
      intro i hi
      rw [Nat.testBit_shiftRight, BitVec.testBit_toNat, BitVec.testBit_toNat, BitVec.getLsbD_or,
        BitVec.getLsbD_shiftLeft, low_mask v (by omega)]
      have a1 : c + i < 32 := by omega
      have a2 : ¬ c + i < c := by omega
      simp only [a1, a2, decide_true, decide_false, Bool.not_false, Bool.true_and, Bool.false_and, Bool.or_false]
      congr 1; omega
    · apply toBits_ext
      intro i hi
      rw [BitVec.testBit_toNat, BitVec.testBit_toNat, BitVec.getLsbD_or,
        BitVec.getLsbD_shiftLeft, low_mask v (by omega)]
      simp [hi]
  by_cases hle : s.left ≥ c
  · rw [if_pos hle]
    refine ⟨_, rfl, by simp; omega, ?_, rfl, hp, Nat.le_refl _, rfl⟩
    simp only [Put.bits]
    rw [show 32 - (s.left - c) = (32 - s.left) + c by omega, key _ _ _ (by omega) (by omega), List.append_assoc]
  · rw [if_neg hle]
    obtain ⟨s', e, _, p, l, m, ml, b, d⟩ := push_spec (s := s) (by omega)
      ((s.mybits <<< s.left) ||| ((topMask s.left >>> (32 - s.left)) &&& (v.sshiftRight (c - s.left))))
    simp only [Option.bind_eq_bind, e, Option.bind_some]
    refine ⟨_, rfl, by simp, ?_, ml, by simp; omega, by simp; omega, by simp; rw [d, p]⟩
    simp only [Put.bits]
    rw [b, List.append_assoc, List.append_assoc]
    congr 1
    rw [show c = s.left + (c - s.left) by omega, toBits_append]
    rw [show s.left + (c - s.left) - s.left = c - s.left by omega]
    rw [show 32 - (32 - (c - s.left)) = c - s.left by omega, ← List.append_assoc]
    congr 1
    · have h32e : (32 : Nat) = (32 - s.left) + s.left := by omega
      rw [congrArg toBits h32e, toBits_append]
      congr 1
      · apply toBits_ext
        intro i hi
        rw [Nat.testBit_shiftRight, BitVec.testBit_toNat, BitVec.testBit_toNat, BitVec.getLsbD_or,
          BitVec.getLsbD_shiftLeft, low_mask _ (by omega)]
        have a1 : s.left + i < 32 := by omega
        have a2 : ¬ s.left + i < s.left := by omega
        simp only [a1, a2, decide_true, decide_false, Bool.not_false, Bool.true_and, Bool.false_and, Bool.or_false]
        congr 1; omega
      · apply toBits_ext
        intro i hi
        rw [BitVec.testBit_toNat, Nat.testBit_shiftRight, BitVec.testBit_toNat, BitVec.getLsbD_or,
          BitVec.getLsbD_shiftLeft, low_mask _ (by omega), BitVec.getLsbD_sshiftRight]
        have a1 : i < 32 := by omega
        have a3 : c - s.left + i < 32 := by omega
        simp [hi, a1, a3]
    · apply toBits_ext
      intro i hi
      rw [BitVec.testBit_toNat, BitVec.testBit_toNat, low_mask _ (by omega)]
      simp [hi]

theorem putFlush_spec {s : Put} (hl : s.left ≤ 32) (room : s.bits.length ≤ 32 * s.mem.length)
    (hp : s.ptr ≤ s.mem.length) :
    ∃ s', putFlush s = some s' ∧ 1 ≤ s'.left ∧ s'.left ≤ 32 ∧ s'.bits = s.bits ∧
      s'.mem.length = s.mem.length ∧ s'.ptr ≤ s.mem.length ∧ s.ptr ≤ s'.ptr ∧
      s'.mem.drop s'.ptr = s.mem.drop s'.ptr := by
  unfold putFlush
  by_cases h : s.left = 0
  · rw [if_pos h]
    simp only [Put.bits, List.length_append, memBits_length, toBits_length, List.length_take, Nat.min_eq_left hp] at room
    obtain ⟨s', e, _, p, l, m, ml, b, d⟩ := push_spec (s := s) (by omega) s.mybits
    simp only [Option.bind_eq_bind, e, Option.bind_some]
    refine ⟨_, rfl, by simp, by simp, ?_, ml, by simp; omega, by simp; omega, by simp; rw [d, p]⟩
    simp only [Put.bits]
    rw [b, h]; simp
  · rw [if_neg h]; exact ⟨s, rfl, by omega, hl, rfl, rfl, hp, Nat.le_refl _, rfl⟩

/-- Total number of bits of a list of widths. -/
def total (ws : List Int) : Nat := (ws.map width).sum

/-- Bits of all slices. -/
def slicesBits (l : List (Int × W)) : List Bool := l.flatMap fun p => toBits (width p.1) p.2.toNat

theorem slicesBits_length (l : List (Int × W)) : (slicesBits l).length = total (l.map (·.1)) := by
  induction l with
  | nil => rfl
  | cons a l ih => simp [slicesBits, total] at ih ⊢; omega

theorem drop_of_drop {α} {a b : List α} {i j : Nat} (h : a.drop i = b.drop i) (hij : i ≤ j) : a.drop j = b.drop j := by
  obtain ⟨k, rfl⟩ : ∃ k, j = i + k := ⟨j - i, by omega⟩
  rw [← List.drop_drop, ← List.drop_drop, h]

theorem putLoop_spec (l : List (Int × W)) (s : Put) (hl1 : 1 ≤ s.left) (hl : s.left ≤ 32) (hp : s.ptr ≤ s.mem.length)
    (room : s.bits.length + total (l.map (·.1)) ≤ 32 * s.mem.length) :
    ∃ s', putLoop l s = some s' ∧ 1 ≤ s'.left ∧ s'.left ≤ 32 ∧ s'.bits = s.bits ++ slicesBits l ∧
      s'.mem.length = s.mem.length ∧ s'.ptr ≤ s.mem.length ∧ s.ptr ≤ s'.ptr ∧
      s'.mem.drop s'.ptr = s.mem.drop s'.ptr := by
  induction l generalizing s with
  | nil => exact ⟨s, rfl, hl1, hl, by simp [slicesBits], rfl, hp, Nat.le_refl _, rfl⟩
  | cons a l ih =>
    obtain ⟨w, v⟩ := a
    have ht : total (((w, v) :: l).map (·.1)) = width w + total (l.map (·.1)) := by simp [total]
    rw [ht] at room
    obtain ⟨s1, e1, l1, b1, m1, p1, q1, d1⟩ := putSlice_spec (s := s) (w := w) (v := v) hl1 hl (by omega) hp
    have hb1 : s1.bits.length = s.bits.length + width w := by rw [b1]; simp
    obtain ⟨s2, e2, k2, l2, b2, m2, p2, q2, d2⟩ := putFlush_spec (s := s1) l1 (by omega) (by omega)
    obtain ⟨s3, e3, k3, l3, b3, m3, p3, q3, d3⟩ := ih s2 k2 l2 (by omega) (by rw [b2]; omega)
    refine ⟨s3, by simp [putLoop, e1, e2, e3], k3, l3, ?_, by omega, by omega, by omega, ?_⟩
    · rw [b3, b2, b1]; simp [slicesBits]
    · rw [d3, drop_of_drop d2 q3, drop_of_drop d1 (by omega)]

theorem fBitsPut_spec (dst : List W) (l : List (Int × W)) (room : total (l.map (·.1)) ≤ 32 * dst.length) :
    ∃ m, fBitsPut dst l = some m ∧ m.length = dst.length ∧ (∃ r, memBits m = slicesBits l ++ r) ∧
      m.drop ((total (l.map (·.1)) + 31) / 32) = dst.drop ((total (l.map (·.1)) + 31) / 32) := by
  have hb0 : (Put.bits { mem := dst, ptr := 0, left := 32, mybits := 0 }) = [] := by simp [Put.bits]
  obtain ⟨s, e, l1, l2, b, m, p, q, d⟩ := putLoop_spec l { mem := dst, ptr := 0, left := 32, mybits := 0 }
    (by simp) (by simp) (by simp) (by rw [hb0]; simpa using room)
  simp only at m p q d
  rw [hb0, List.nil_append] at b
  have hlen : 32 * s.ptr + (32 - s.left) = total (l.map (·.1)) := by
    rw [← slicesBits_length, ← b]
    simp only [Put.bits, List.length_append, memBits_length, toBits_length, List.length_take]
    omega
  simp only [fBitsPut, e, Option.bind_eq_bind, Option.bind_some]
  by_cases h : s.left < 32
  · rw [if_pos h]
    have hpl : s.ptr < s.mem.length := by omega
    refine ⟨s.mem.set s.ptr (s.mybits <<< s.left), by simp [store, hpl], by simp [m], ?_, ?_⟩
    · refine ⟨toBits s.left (s.mybits <<< s.left).toNat ++ memBits (s.mem.drop (s.ptr + 1)), ?_⟩
      rw [← b, ← List.take_append_drop (s.ptr + 1) (s.mem.set s.ptr (s.mybits <<< s.left)), memBits_append,
        take_set_succ _ _ _ hpl, List.drop_set_of_lt (by omega)]
      simp only [memBits_append, memBits_cons, memBits_nil, List.append_nil, Put.bits, List.append_assoc]
      congr 1
      rw [← List.append_assoc]
      congr 1
      have h32e : (32 : Nat) = (32 - s.left) + s.left := by omega
      rw [congrArg toBits h32e, toBits_append]
      congr 1
      apply toBits_ext
      intro i hi
      rw [Nat.testBit_shiftRight, BitVec.testBit_toNat, BitVec.testBit_toNat, BitVec.getLsbD_shiftLeft]
      have a1 : s.left + i < 32 := by omega
      have a2 : ¬ s.left + i < s.left := by omega
      simp only [a1, a2, decide_true, decide_false, Bool.not_false, Bool.true_and]
      congr 1; omega
    · have : (total (l.map (·.1)) + 31) / 32 = s.ptr + 1 := by omega
      rw [this, List.drop_set_of_lt (by omega)]
      exact drop_of_drop d (by omega)
  · rw [if_neg h]
    have h32 : s.left = 32 := by omega
    refine ⟨s.mem, rfl, m, ⟨memBits (s.mem.drop s.ptr), ?_⟩, ?_⟩
    · rw [← b]; simp only [Put.bits, h32]
      rw [Nat.sub_self, toBits_zero, List.append_nil, ← memBits_append, List.take_append_drop]
    · have : (total (l.map (·.1)) + 31) / 32 = s.ptr := by omega
      rw [this]; exact d

end Verif.BitSlicer
