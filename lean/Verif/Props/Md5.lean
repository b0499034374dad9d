import Verif.Md5

/-!
C62: md5.c computes the digest of RFC 1321, whatever way the message is cut, and the code of RFC 2104.

The specification is on 32-bit words, with one loop of 64 steps.
-/
namespace Props.Md5

open Verif.Md5

/-! ### RFC 1321 -/

abbrev Word := BitVec 32
abbrev St := Word × Word × Word × Word

/-- Word `k` of a block: four bytes, the first is the lowest. -/
def word (b : List Byte) (k : Nat) : Word :=
  b.getD (4 * k + 3) 0 ++ b.getD (4 * k + 2) 0 ++ b.getD (4 * k + 1) 0 ++ b.getD (4 * k) 0

/-- The function of step `i`. -/
def mix (i : Nat) (x y z : Word) : Word :=
  if i < 16 then (x &&& y) ||| (~~~x &&& z)
  else if i < 32 then (x &&& z) ||| (y &&& ~~~z)
  else if i < 48 then x ^^^ y ^^^ z
  else y ^^^ (x ||| ~~~z)

/-- The word used by step `i`. -/
def index (i : Nat) : Nat :=
  if i < 16 then i else if i < 32 then (5 * i + 1) % 16 else if i < 48 then (3 * i + 5) % 16 else 7 * i % 16

/-- The rotation of step `i`. -/
def amount (i : Nat) : Nat :=
  ([[7, 12, 17, 22], [5, 9, 14, 20], [4, 11, 16, 23], [6, 10, 15, 21]].getD (i / 16) []).getD (i % 4) 0

/-- The integer part of `2 ^ 32 |sin (i + 1)|`, see `C62_table`. -/
def table (i : Nat) : Nat := [
  0xd76aa478, 0xe8c7b756, 0x242070db, 0xc1bdceee, 0xf57c0faf, 0x4787c62a, 0xa8304613, 0xfd469501,
  0x698098d8, 0x8b44f7af, 0xffff5bb1, 0x895cd7be, 0x6b901122, 0xfd987193, 0xa679438e, 0x49b40821,
  0xf61e2562, 0xc040b340, 0x265e5a51, 0xe9b6c7aa, 0xd62f105d, 0x02441453, 0xd8a1e681, 0xe7d3fbc8,
  0x21e1cde6, 0xc33707d6, 0xf4d50d87, 0x455a14ed, 0xa9e3e905, 0xfcefa3f8, 0x676f02d9, 0x8d2a4c8a,
  0xfffa3942, 0x8771f681, 0x6d9d6122, 0xfde5380c, 0xa4beea44, 0x4bdecfa9, 0xf6bb4b60, 0xbebfbc70,
  0x289b7ec6, 0xeaa127fa, 0xd4ef3085, 0x04881d05, 0xd9d4d039, 0xe6db99e5, 0x1fa27cf8, 0xc4ac5665,
  0xf4292244, 0x432aff97, 0xab9423a7, 0xfc93a039, 0x655b59c3, 0x8f0ccc92, 0xffeff47d, 0x85845dd1,
  0x6fa87e4f, 0xfe2ce6e0, 0xa3014314, 0x4e0811a1, 0xf7537e82, 0xbd3af235, 0x2ad7d2bb, 0xeb86d391].getD i 0

/-- Step `i`. -/
def step (X : Nat → Word) (i : Nat) (v : St) : St :=
  (v.2.2.2, v.2.1 + (v.1 + mix i v.2.1 v.2.2.1 v.2.2.2 + X (index i) + BitVec.ofNat 32 (table i)).rotateLeft (amount i),
    v.2.1, v.2.2.1)

/-- Steps `0` to `n - 1`. -/
def run (X : Nat → Word) : Nat → St → St
  | 0, v => v
  | n + 1, v => step X n (run X n v)

/-- Sum by words. -/
def sum (s r : St) : St := (s.1 + r.1, s.2.1 + r.2.1, s.2.2.1 + r.2.2.1, s.2.2.2 + r.2.2.2)

/-- A block of 64 bytes. -/
def compress (s : St) (b : List Byte) : St := sum s (run (word b) 64 s)

/-- The first `n` blocks of a message. -/
def absorb : Nat → St → List Byte → St
  | 0, s, _ => s
  | n + 1, s, m => absorb n (compress s (m.take 64)) (m.drop 64)

def init : St := (0x67452301, 0xefcdab89, 0x98badcfe, 0x10325476)

/-- `n` bytes of a number, the lowest first. -/
def bytes : Nat → Nat → List Byte
  | 0, _ => []
  | n + 1, x => BitVec.ofNat 8 x :: bytes n (x / 256)

/-- The message, a bit one, zeros up to 56 bytes in the last block, the number of bits. -/
def padded (m : List Byte) : List Byte :=
  m ++ 0x80 :: List.replicate ((119 - m.length % 64) % 64) 0 ++ bytes 8 (8 * m.length)

/-- The digest. -/
def digest (m : List Byte) : List Byte :=
  let s := absorb ((padded m).length / 64) init (padded m)
  bytes 4 s.1.toNat ++ bytes 4 s.2.1.toNat ++ bytes 4 s.2.2.1.toNat ++ bytes 4 s.2.2.2.toNat

/-! ### RFC 2104 -/

/-- The key on 64 bytes. -/
def key64 (k : List Byte) : List Byte :=
  let k := if k.length ≤ 64 then k else digest k
  k ++ List.replicate (64 - k.length) 0

/-- The keyed code. -/
def code (k m : List Byte) : List Byte :=
  digest ((key64 k).map (· ^^^ 0x5c) ++ digest ((key64 k).map (· ^^^ 0x36) ++ m))

/-! ### Low halves -/

def low (x : L) : Word := x.setWidth 32

theorem low_add (x y : L) : low (x + y) = low x + low y := BitVec.setWidth_add _ _ (by omega)
theorem low_and (x y : L) : low (x &&& y) = low x &&& low y := BitVec.setWidth_and
theorem low_or (x y : L) : low (x ||| y) = low x ||| low y := BitVec.setWidth_or
theorem low_xor (x y : L) : low (x ^^^ y) = low x ^^^ low y := BitVec.setWidth_xor
theorem low_not (x : L) : low (~~~x) = ~~~low x := BitVec.setWidth_not (by omega)

theorem low_rot (x : L) (n : Nat) (h0 : 0 < n) (h : n < 32) : low (rot x n) = (low x).rotateLeft n := by
  apply BitVec.eq_of_getLsbD_eq
  intro i hi
  have hm : ∀ j, (0xFFFFFFFF : L).getLsbD j = decide (j < 32) := by
    intro j
    rw [show (0xFFFFFFFF : L) = (BitVec.allOnes 32).setWidth 64 by decide, BitVec.getLsbD_setWidth, BitVec.getLsbD_allOnes]
    by_cases h : j < 32
    · simp [h, show j < 64 by omega]
    · simp [h]
  rw [BitVec.getLsbD_rotateLeft]
  rw [Nat.mod_eq_of_lt h]
  simp only [low, rot, BitVec.getLsbD_setWidth, BitVec.getLsbD_or, BitVec.getLsbD_shiftLeft, BitVec.getLsbD_ushiftRight,
    BitVec.getLsbD_and, hm]
  by_cases hn : i < n
  · have h1 : 32 - n + i < 32 := by omega
    simp [hn, hi, h1]
  · have h1 : ¬ 32 - n + i < 32 := by omega
    have h2 : i - n < 32 := by omega
    have h3 : i < 64 := by omega
    simp [hn, hi, h1, h2, h3]

theorem low_getLong (b : List Byte) (k : Nat) : low (getLong b (4 * k)) = word b k := by
  apply BitVec.eq_of_getLsbD_eq
  intro i hi
  simp only [low, getLong, word, byteAt, List.getD_eq_getElem?_getD, BitVec.getLsbD_setWidth, BitVec.getLsbD_or,
    BitVec.getLsbD_shiftLeft, BitVec.getLsbD_append]
  rcases (by omega : i < 8 ∨ 8 ≤ i ∧ i < 16 ∨ 16 ≤ i ∧ i < 24 ∨ 24 ≤ i) with h | h | h | h
  · simp [show i < 32 by omega, show i < 64 by omega, h, show i < 16 by omega, show i < 24 by omega]
  · simp [show i < 32 by omega, show i < 64 by omega, show ¬ i < 8 by omega, show i < 16 by omega, show i < 24 by omega,
      show i - 8 < 8 by omega, show i - 8 < 64 by omega, BitVec.getLsbD_of_ge _ _ (show 8 ≤ i by omega)]
  · simp [show i < 32 by omega, show i < 64 by omega, show ¬ i < 8 by omega, show ¬ i < 16 by omega, show i < 24 by omega,
      show i - 8 < 64 by omega, BitVec.getLsbD_of_ge _ _ (show 8 ≤ i by omega), Nat.sub_sub,
      BitVec.getLsbD_of_ge _ _ (show 8 ≤ i - 8 by omega), show ¬ i - 8 < 8 by omega, show i - 16 < 64 by omega,
      show i - 16 < 8 by omega]
  · simp [show i < 32 by omega, show i < 64 by omega, show ¬ i < 8 by omega, show ¬ i < 16 by omega, show ¬ i < 24 by omega,
      BitVec.getLsbD_of_ge _ _ (show 8 ≤ i by omega), Nat.sub_sub, BitVec.getLsbD_of_ge _ _ (show 8 ≤ i - 16 by omega),
      BitVec.getLsbD_of_ge _ _ (show 8 ≤ i - 8 by omega), show ¬ i - 8 < 8 by omega, show ¬ i - 16 < 8 by omega,
      show i - 24 < 64 by omega]

theorem low_P (F : L → L → L → L) (f : Word → Word → Word → Word) (hF : ∀ x y z, low (F x y z) = f (low x) (low y) (low z))
    (X : Nat → L) (Y : Nat → Word) (hX : ∀ k, low (X k) = Y k) (a b c d : L) (k s : Nat) (t : L) (h0 : 0 < s) (h : s < 32) :
    low (P F X a b c d k s t) = low b + (low a + f (low b) (low c) (low d) + Y k + low t).rotateLeft s := by
  rw [P, low_add, low_rot _ _ h0 h, low_add, low_add, low_add, hF, hX, BitVec.add_comm]
  simp only [BitVec.add_assoc]

theorem low_F1 (x y z : L) : low (F1 x y z) = (low x &&& low y) ||| (~~~low x &&& low z) := by
  rw [F1, low_xor, low_and, low_xor]
  generalize low x = x, low y = y, low z = z
  apply BitVec.eq_of_getLsbD_eq
  intro i hi
  simp only [BitVec.getLsbD_or, BitVec.getLsbD_and, BitVec.getLsbD_xor, BitVec.getLsbD_not, hi, decide_true, Bool.true_and]
  cases x.getLsbD i <;> cases y.getLsbD i <;> cases z.getLsbD i <;> rfl

theorem low_F2 (x y z : L) : low (F2 x y z) = (low x &&& low z) ||| (low y &&& ~~~low z) := by
  rw [F2, low_xor, low_and, low_xor]
  generalize low x = x, low y = y, low z = z
  apply BitVec.eq_of_getLsbD_eq
  intro i hi
  simp only [BitVec.getLsbD_or, BitVec.getLsbD_and, BitVec.getLsbD_xor, BitVec.getLsbD_not, hi, decide_true, Bool.true_and]
  cases x.getLsbD i <;> cases y.getLsbD i <;> cases z.getLsbD i <;> rfl

theorem low_F3 (x y z : L) : low (F3 x y z) = low x ^^^ low y ^^^ low z := by rw [F3, low_xor, low_xor]

theorem low_F4 (x y z : L) : low (F4 x y z) = low y ^^^ (low x ||| ~~~low z) := by rw [F4, low_xor, low_or, low_not]

/-! ### The 64 steps -/

def lows (v : L × L × L × L) : St := (low v.1, low v.2.1, low v.2.2.1, low v.2.2.2)

/-- The arguments agree with the ones of step `i`. -/
def Agree (i : Nat) (q : Arg) : Prop :=
  q.1 = index i ∧ q.2.1 = amount i ∧ low q.2.2 = BitVec.ofNat 32 (table i) ∧ 0 < q.2.1 ∧ q.2.1 < 32

instance (i : Nat) (q : Arg) : Decidable (Agree i q) := by unfold Agree; infer_instance

theorem run_four (F : L → L → L → L) (X : Nat → L) (Y : Nat → Word) (hX : ∀ k, low (X k) = Y k) (n : Nat)
    (hF : ∀ i, n ≤ i → i < n + 4 → ∀ x y z, low (F x y z) = mix i (low x) (low y) (low z))
    (q : Arg × Arg × Arg × Arg)
    (hq : Agree n q.1 ∧ Agree (n + 1) q.2.1 ∧ Agree (n + 2) q.2.2.1 ∧ Agree (n + 3) q.2.2.2) (v : L × L × L × L) (s : St)
    (h : run Y n s = lows v) : run Y (n + 4) s = lows (four F X v q) := by
  obtain ⟨A, B, C, D⟩ := v
  obtain ⟨⟨k1, s1, t1⟩, ⟨k2, s2, t2⟩, ⟨k3, s3, t3⟩, ⟨k4, s4, t4⟩⟩ := q
  obtain ⟨⟨a1, a2, a3, a4, a5⟩, ⟨b1, b2, b3, b4, b5⟩, ⟨c1, c2, c3, c4, c5⟩, ⟨d1, d2, d3, d4, d5⟩⟩ := hq
  dsimp only at a1 a2 a3 a4 a5 b1 b2 b3 b4 b5 c1 c2 c3 c4 c5 d1 d2 d3 d4 d5
  simp only [run, h, lows, four, step]
  rw [low_P F _ (hF (n + 3) (by omega) (by omega)) X Y hX _ _ _ _ _ _ _ d4 d5,
    low_P F _ (hF (n + 2) (by omega) (by omega)) X Y hX _ _ _ _ _ _ _ c4 c5,
    low_P F _ (hF (n + 1) (by omega) (by omega)) X Y hX _ _ _ _ _ _ _ b4 b5,
    low_P F _ (hF n (by omega) (by omega)) X Y hX _ _ _ _ _ _ _ a4 a5, a1, a2, a3, b1, b2, b3, c1, c2, c3, d1, d2, d3]

theorem run_round (F : L → L → L → L) (X : Nat → L) (Y : Nat → Word) (hX : ∀ k, low (X k) = Y k) (s : St) :
    ∀ (l : List (Arg × Arg × Arg × Arg)) (n : Nat) (v : L × L × L × L),
    (∀ i, n ≤ i → i < n + 4 * l.length → ∀ x y z, low (F x y z) = mix i (low x) (low y) (low z)) →
    (∀ (j : Nat) (q : Arg × Arg × Arg × Arg), l[j]? = some q →
      Agree (n + 4 * j) q.1 ∧ Agree (n + 4 * j + 1) q.2.1 ∧ Agree (n + 4 * j + 2) q.2.2.1 ∧ Agree (n + 4 * j + 3) q.2.2.2) →
    run Y n s = lows v → run Y (n + 4 * l.length) s = lows (l.foldl (four F X) v)
  | [], n, v, _, _, h => h
  | q :: l, n, v, hF, hq, h => by
    have := run_round F X Y hX s l (n + 4) (four F X v q)
      (fun i h1 h2 => hF i (by omega) (by simp only [List.length_cons]; omega))
      (fun j r hr => by
        have := hq (j + 1) r (by simpa using hr)
        rw [show n + 4 * (j + 1) = n + 4 + 4 * j by omega] at this
        exact this)
      (run_four F X Y hX n (fun i h1 h2 => hF i h1 (by simp only [List.length_cons]; omega)) q (hq 0 q rfl) v s h)
    rw [List.length_cons, show n + 4 * (l.length + 1) = n + 4 + 4 * l.length by omega]
    exact this

theorem agree_of (n : Nat) (a b c d : Arg × Arg × Arg × Arg)
    (h : ∀ j < 4, Agree (n + 4 * j) (([a, b, c, d].getD j a).1) ∧ Agree (n + 4 * j + 1) (([a, b, c, d].getD j a).2.1) ∧
      Agree (n + 4 * j + 2) (([a, b, c, d].getD j a).2.2.1) ∧ Agree (n + 4 * j + 3) (([a, b, c, d].getD j a).2.2.2))
    (j : Nat) (q : Arg × Arg × Arg × Arg) (hj : [a, b, c, d][j]? = some q) :
    Agree (n + 4 * j) q.1 ∧ Agree (n + 4 * j + 1) q.2.1 ∧ Agree (n + 4 * j + 2) q.2.2.1 ∧ Agree (n + 4 * j + 3) q.2.2.2 := by
  have hl : j < 4 := by
    have := (List.getElem?_eq_some_iff.1 hj).1
    simpa using this
  have := h j hl
  rw [List.getD_eq_getElem?_getD, hj] at this
  exact this

theorem run_steps (X : Nat → L) (Y : Nat → Word) (hX : ∀ k, low (X k) = Y k) (v : L × L × L × L) :
    run Y 64 (lows v) = lows (steps X v) := by
  have h1 := run_round F1 X Y hX (lows v) round1 0 v
    (fun i _ h x y z => by
      rw [low_F1, mix, if_pos (by simpa [round1] using h)])
    (agree_of 0 _ _ _ _ (by decide)) rfl
  have h2 := run_round F2 X Y hX (lows v) round2 16 _
    (fun i h0 h x y z => by
      rw [low_F2, mix, if_neg (by omega), if_pos (by simpa [round2] using h)])
    (agree_of 16 _ _ _ _ (by decide)) h1
  have h3 := run_round F3 X Y hX (lows v) round3 32 _
    (fun i h0 h x y z => by
      rw [low_F3, mix, if_neg (by omega), if_neg (by omega), if_pos (by simpa [round3] using h)])
    (agree_of 32 _ _ _ _ (by decide)) h2
  have h4 := run_round F4 X Y hX (lows v) round4 48 _
    (fun i h0 h x y z => by
      rw [low_F4, mix, if_neg (by omega), if_neg (by omega), if_neg (by omega)])
    (agree_of 48 _ _ _ _ (by decide)) h3
  exact h4

/-! ### Blocks -/

attribute [local irreducible] steps run

def lowState (c : Ctx) : St := (low c.s0, low c.s1, low c.s2, low c.s3)

theorem bump_low (c : Ctx) (r : L × L × L × L) : lowState (bump c r) = sum (lowState c) (lows r) := by
  unfold lowState bump sum lows
  simp only [low_add]

theorem process_low (c : Ctx) (b : List Byte) : lowState (process c b) = compress (lowState c) b := by
  have := run_steps (fun k => getLong b (4 * k)) (word b) (fun k => low_getLong b k) (c.s0, c.s1, c.s2, c.s3)
  rw [process, bump_low, compress, ← this]
  rfl

theorem bump_rest (c : Ctx) (r : L × L × L × L) : (bump c r).total0 = c.total0 ∧ (bump c r).total1 = c.total1 ∧
    (bump c r).buffer = c.buffer ∧ (bump c r).ipad = c.ipad ∧ (bump c r).opad = c.opad := ⟨rfl, rfl, rfl, rfl, rfl⟩

theorem process_rest (c : Ctx) (b : List Byte) : (process c b).total0 = c.total0 ∧ (process c b).total1 = c.total1 ∧
    (process c b).buffer = c.buffer ∧ (process c b).ipad = c.ipad ∧ (process c b).opad = c.opad := bump_rest c _

theorem absorb_append : ∀ (n : Nat) (s : St) (m r : List Byte), 64 * n ≤ m.length → absorb n s (m ++ r) = absorb n s m
  | 0, _, _, _, _ => rfl
  | n + 1, s, m, r, h => by
    rw [absorb, absorb, List.take_append_of_le_length (by omega), List.drop_append_of_le_length (by omega)]
    exact absorb_append n _ _ r (by rw [List.length_drop]; omega)

theorem absorb_succ : ∀ (n : Nat) (s : St) (m : List Byte),
    absorb (n + 1) s m = compress (absorb n s m) ((m.drop (64 * n)).take 64)
  | 0, s, m => by simp [absorb]
  | n + 1, s, m => by
    rw [absorb, absorb_succ n, absorb, List.drop_drop]
    rw [show 64 + 64 * n = 64 * (n + 1) by omega]

/-- The context holds the message `m`. -/
structure Rep (c : Ctx) (m : List Byte) : Prop where
  low : c.total0 = m.length % 2 ^ 32
  high : c.total1 = m.length / 2 ^ 32 % 2 ^ 64
  state : lowState c = absorb (m.length / 64) init m
  held : c.buffer.take (m.length % 64) = m.drop (64 * (m.length / 64))
  size : c.buffer.length = 64

theorem copy_size (b : List Byte) (l : Nat) (x : List Byte) (hb : b.length = 64) (h : l + x.length ≤ 64) :
    (copy b l x).length = 64 := by
  simp only [copy, List.length_append, List.length_take, List.length_drop, hb]
  omega

theorem copy_take (b : List Byte) (l : Nat) (x : List Byte) (hb : b.length = 64) (h : l + x.length ≤ 64) :
    (copy b l x).take (l + x.length) = b.take l ++ x := by
  rw [copy, List.append_assoc, ← List.append_assoc]
  rw [List.take_append_of_le_length (by rw [List.length_append, List.length_take, hb]; omega)]
  apply List.take_of_length_le
  rw [List.length_append, List.length_take, hb]
  omega

/-- What the loop leaves. -/
theorem whole_zero : ∀ (fuel : Nat) (c : Ctx) (m input : List Byte), input.length < fuel → m.length % 64 = 0 →
    lowState c = absorb (m.length / 64) init m → c.buffer.length = 64 →
    lowState (whole 0 fuel c input) = absorb ((m ++ input).length / 64) init (m ++ input) ∧
    (whole 0 fuel c input).buffer.take ((m ++ input).length % 64) = (m ++ input).drop (64 * ((m ++ input).length / 64)) ∧
    (whole 0 fuel c input).buffer.length = 64 ∧ (whole 0 fuel c input).total0 = c.total0 ∧
    (whole 0 fuel c input).total1 = c.total1 ∧ (whole 0 fuel c input).ipad = c.ipad ∧ (whole 0 fuel c input).opad = c.opad
  | 0, _, _, _, h, _, _, _ => absurd h (by omega)
  | fuel + 1, c, m, input, hf, hm, hs, hb => by
    rw [whole]
    split
    · rename_i hl
      have hlen : (input.take 64).length = 64 := by rw [List.length_take]; omega
      have := whole_zero fuel (process c (input.take 64)) (m ++ input.take 64) (input.drop 64)
        (by rw [List.length_drop]; omega) (by rw [List.length_append, hlen]; omega)
        (by
          rw [process_low, hs, List.length_append, hlen, show (m.length + 64) / 64 = m.length / 64 + 1 by omega, absorb_succ,
            absorb_append _ _ _ _ (by omega), List.drop_append_of_le_length (by omega), List.drop_of_length_le (by omega),
            List.nil_append, List.take_take]
          simp)
        (by rw [(process_rest _ _).2.2.1]; exact hb)
      obtain ⟨p1, p2, p3, p4, p5⟩ := process_rest c (input.take 64)
      rw [List.append_assoc, List.take_append_drop, p1, p2, p4, p5] at this
      exact this
    · rename_i hl
      have e1 : (m ++ input).length / 64 = m.length / 64 := by rw [List.length_append]; omega
      have e2 : (m ++ input).length % 64 = input.length := by rw [List.length_append]; omega
      have e3 : (m ++ input).drop (64 * (m.length / 64)) = input := by
        rw [List.drop_append_of_le_length (by omega), List.drop_of_length_le (by omega), List.nil_append]
      rw [e1, e2, e3, absorb_append _ _ _ _ (by omega)]
      split
      · have := copy_take c.buffer 0 input hb (by omega)
        rw [Nat.zero_add] at this
        exact ⟨hs, by simpa using this, copy_size _ _ _ hb (by omega), rfl, rfl, rfl, rfl⟩
      · rename_i h0
        have : input = [] := List.eq_nil_of_length_eq_zero (by omega)
        subst this
        exact ⟨hs, by simp, hb, rfl, rfl, rfl, rfl⟩

/-- An update appends its input. -/
theorem update_rep (c : Ctx) (m input : List Byte) (h : Rep c m) (hi : input.length < 2 ^ 31) :
    Rep (update c input) (m ++ input) ∧ (update c input).ipad = c.ipad ∧ (update c input).opad = c.opad := by
  rw [update]
  split
  · rename_i h0
    have : input = [] := List.eq_nil_of_length_eq_zero h0
    subst this
    rw [List.append_nil]
    exact ⟨h, rfl, rfl⟩
  rename_i h0
  have hl : c.total0 % 64 = m.length % 64 := by rw [h.low]; omega
  have ht0 : (c.total0 + input.length) % 2 ^ 32 = (m ++ input).length % 2 ^ 32 := by
    rw [h.low, List.length_append]; omega
  have ht1 : (if (c.total0 + input.length) % 2 ^ 32 < input.length then (c.total1 + 1) % 2 ^ 64 else c.total1) =
      (m ++ input).length / 2 ^ 32 % 2 ^ 64 := by
    have h1 := h.low
    have h2 := h.high
    rw [List.length_append]
    split <;> omega
  have hstate := h.state
  have hheld := h.held
  have hsize := h.size
  dsimp only
  rw [hl]
  split
  · rename_i hc
    have hlen : (input.take (64 - m.length % 64)).length = 64 - m.length % 64 := by rw [List.length_take]; omega
    have hcs : (copy c.buffer (m.length % 64) (input.take (64 - m.length % 64))).length = 64 :=
      copy_size _ _ _ hsize (by rw [hlen]; omega)
    have hct := copy_take c.buffer (m.length % 64) (input.take (64 - m.length % 64)) hsize (by rw [hlen]; omega)
    rw [hlen, show m.length % 64 + (64 - m.length % 64) = 64 by omega, List.take_of_length_le (by omega), hheld] at hct
    have := whole_zero (input.length + 1)
      (process { c with total0 := (c.total0 + input.length) % 2 ^ 32, total1 := if (c.total0 + input.length) % 2 ^ 32 < input.length then (c.total1 + 1) % 2 ^ 64 else c.total1, buffer := copy c.buffer (m.length % 64) (input.take (64 - m.length % 64)) } (copy c.buffer (m.length % 64) (input.take (64 - m.length % 64))))
      (m ++ input.take (64 - m.length % 64)) (input.drop (64 - m.length % 64))
      (by rw [List.length_drop]; omega) (by rw [List.length_append, hlen]; omega)
      (by
        rw [process_low, List.length_append, hlen, show (m.length + (64 - m.length % 64)) / 64 = m.length / 64 + 1 by omega,
          absorb_succ, absorb_append _ _ _ _ (by omega), List.drop_append_of_le_length (by omega), hct,
          List.take_of_length_le (l := m.drop _ ++ _) (by rw [List.length_append, List.length_drop, hlen]; omega), ← hstate]
        rfl)
      (by rw [(process_rest _ _).2.2.1]; exact hcs)
    obtain ⟨p1, p2, p3, p4, p5⟩ := process_rest
      { c with total0 := (c.total0 + input.length) % 2 ^ 32, total1 := if (c.total0 + input.length) % 2 ^ 32 < input.length then (c.total1 + 1) % 2 ^ 64 else c.total1, buffer := copy c.buffer (m.length % 64) (input.take (64 - m.length % 64)) } (copy c.buffer (m.length % 64) (input.take (64 - m.length % 64)))
    rw [List.append_assoc, List.take_append_drop, p1, p2, p4, p5] at this
    obtain ⟨r1, r2, r3, r4, r5, r6, r7⟩ := this
    exact ⟨⟨r4.trans ht0, r5.trans ht1, r1, r2, r3⟩, r6, r7⟩
  · rename_i hc
    by_cases hz : m.length % 64 = 0
    · rw [hz]
      obtain ⟨r1, r2, r3, r4, r5, r6, r7⟩ := whole_zero (input.length + 1)
        { c with total0 := (c.total0 + input.length) % 2 ^ 32, total1 := if (c.total0 + input.length) % 2 ^ 32 < input.length then (c.total1 + 1) % 2 ^ 64 else c.total1 }
        m input (by omega) hz hstate hsize
      exact ⟨⟨r4.trans ht0, r5.trans ht1, r1, r2, r3⟩, r6, r7⟩
    · have hs : input.length < 64 - m.length % 64 := Nat.lt_of_not_le fun hcon => hc ⟨hz, hcon⟩
      rw [whole, if_neg (by omega), if_pos (by omega)]
      have hct := copy_take c.buffer (m.length % 64) input hsize (by omega)
      rw [hheld] at hct
      have e1 : (m ++ input).length / 64 = m.length / 64 := by rw [List.length_append]; omega
      have e2 : (m ++ input).length % 64 = m.length % 64 + input.length := by rw [List.length_append]; omega
      refine ⟨⟨ht0, ht1, ?_, ?_, copy_size _ _ _ hsize (by omega)⟩, rfl, rfl⟩
      · rw [e1, absorb_append _ _ _ _ (by omega)]
        exact hstate
      · rw [e1, e2, List.drop_append_of_le_length (by omega)]
        exact hct

theorem updates_rep : ∀ (parts : List (List Byte)) (c : Ctx) (m : List Byte), Rep c m → (∀ p ∈ parts, p.length < 2 ^ 31) →
    Rep (parts.foldl update c) (m ++ parts.flatten) ∧ (parts.foldl update c).ipad = c.ipad ∧
    (parts.foldl update c).opad = c.opad
  | [], c, m, h, _ => by
    rw [List.flatten_nil, List.append_nil]
    exact ⟨h, rfl, rfl⟩
  | p :: parts, c, m, h, hp => by
    obtain ⟨h1, h2, h3⟩ := update_rep c m p h (hp p (by simp))
    obtain ⟨g1, g2, g3⟩ := updates_rep parts (update c p) (m ++ p) h1 (fun q hq => hp q (by simp [hq]))
    rw [List.flatten_cons, ← List.append_assoc]
    exact ⟨g1, g2.trans h2, g3.trans h3⟩

theorem starts_rep (c : Ctx) (h : c.buffer.length = 64) : Rep (starts c) [] :=
  ⟨rfl, rfl, rfl, rfl, h⟩

/-! ### The end -/

theorem bytes_append : ∀ (a b x : Nat), bytes (a + b) x = bytes a x ++ bytes b (x / 256 ^ a)
  | 0, b, x => by simp [bytes]
  | a + 1, b, x => by
    rw [show a + 1 + b = (a + b) + 1 by omega, bytes, bytes_append a b, bytes, List.cons_append, Nat.div_div_eq_div_mul,
      Nat.pow_succ, Nat.mul_comm 256]

theorem putLong_bytes (x : L) : putLong x = bytes 4 x.toNat := by
  have h : ∀ k, (x >>> k).setWidth 8 = BitVec.ofNat 8 (x.toNat / 2 ^ k) := by
    intro k
    apply BitVec.eq_of_toNat_eq
    rw [BitVec.toNat_setWidth, BitVec.toNat_ushiftRight, BitVec.toNat_ofNat, Nat.shiftRight_eq_div_pow]
  have h0 : x.setWidth 8 = BitVec.ofNat 8 x.toNat := by
    apply BitVec.eq_of_toNat_eq
    rw [BitVec.toNat_setWidth, BitVec.toNat_ofNat]
  simp only [putLong, bytes, h, h0, Nat.div_div_eq_div_mul]

theorem bytes_congr : ∀ (n x y : Nat), x % 256 ^ n = y % 256 ^ n → bytes n x = bytes n y
  | 0, _, _, _ => rfl
  | n + 1, x, y, h => by
    have h1 : x % 256 = y % 256 := by
      have := congrArg (· % 256) h
      have hd : 256 ∣ 256 ^ (n + 1) := ⟨256 ^ n, by rw [Nat.pow_succ, Nat.mul_comm]⟩
      simpa only [Nat.mod_mod_of_dvd _ hd] using this
    have h2 : x / 256 % 256 ^ n = y / 256 % 256 ^ n := by
      have := congrArg (· / 256) h
      simpa [Nat.pow_succ, Nat.mul_comm (256 ^ n), Nat.mod_mul_right_div_self] using this
    rw [bytes, bytes, bytes_congr n _ _ h2]
    congr 1
    apply BitVec.eq_of_toNat_eq
    simpa using h1

theorem putLong_low (x : L) : putLong x = bytes 4 (low x).toNat := by
  rw [putLong_bytes]
  apply bytes_congr
  rw [low, BitVec.toNat_setWidth, show (256 : Nat) ^ 4 = 2 ^ 32 by decide, Nat.mod_mod]

theorem length_bytes (c : Ctx) (n : Nat) (h0 : c.total0 = n % 2 ^ 32) (h1 : c.total1 = n / 2 ^ 32 % 2 ^ 64) :
    putLong (BitVec.ofNat 64 c.total0 <<< 3) ++
      putLong (BitVec.ofNat 64 c.total0 >>> 29 ||| BitVec.ofNat 64 c.total1 <<< 3) = bytes 8 (8 * n) := by
  rw [bytes_append 4 4 (8 * n), putLong_bytes, putLong_bytes]
  have a1 : bytes 4 (BitVec.ofNat 64 c.total0 <<< 3).toNat = bytes 4 (8 * n) := by
    apply bytes_congr
    rw [BitVec.toNat_shiftLeft, BitVec.toNat_ofNat, Nat.shiftLeft_eq, h0]
    omega
  have a2 : bytes 4 (BitVec.ofNat 64 c.total0 >>> 29 ||| BitVec.ofNat 64 c.total1 <<< 3).toNat =
      bytes 4 (8 * n / 256 ^ 4) := by
    apply bytes_congr
    rw [BitVec.toNat_or, BitVec.toNat_shiftLeft, BitVec.toNat_ushiftRight, BitVec.toNat_ofNat, BitVec.toNat_ofNat,
      Nat.shiftLeft_eq, Nat.shiftRight_eq_div_pow, Nat.or_comm,
      show c.total1 % 2 ^ 64 * 2 ^ 3 % 2 ^ 64 = (c.total1 % 2 ^ 61) <<< 3 by rw [Nat.shiftLeft_eq]; omega,
      ← Nat.shiftLeft_add_eq_or_of_lt (by omega), Nat.shiftLeft_eq, h0, h1]
    omega
  rw [a1, a2]

theorem padding_take (k : Nat) (h : k < 64) : padding.take (k + 1) = 0x80 :: List.replicate k 0 := by
  rw [padding, List.take_succ_cons, List.take_replicate, Nat.min_eq_left (by omega)]

theorem padding_last (n : Nat) :
    padding.take (if n % 64 < 56 then 56 - n % 64 else 120 - n % 64) = 0x80 :: List.replicate ((119 - n % 64) % 64) 0 := by
  rw [← padding_take _ (by omega)]
  congr 1
  split <;> omega

theorem bytes_length : ∀ (n x : Nat), (bytes n x).length = n
  | 0, _ => rfl
  | n + 1, x => by rw [bytes, List.length_cons, bytes_length n]

theorem finish_rep (c : Ctx) (m : List Byte) (h : Rep c m) :
    (finish c).2 = digest m ∧ (finish c).1.buffer.length = 64 ∧ (finish c).1.ipad = c.ipad ∧ (finish c).1.opad = c.opad := by
  have hl : c.total0 % 64 = m.length % 64 := by rw [h.low]; omega
  rw [finish]
  dsimp only
  rw [length_bytes c m.length h.low h.high, hl, padding_last]
  obtain ⟨r1, i1, o1⟩ := update_rep c m (0x80 :: List.replicate ((119 - m.length % 64) % 64) 0) h
    (by rw [List.length_cons, List.length_replicate]; omega)
  obtain ⟨r2, i2, o2⟩ := update_rep _ _ (bytes 8 (8 * m.length)) r1 (by rw [bytes_length]; decide)
  refine ⟨?_, r2.size, i2.trans i1, o2.trans o1⟩
  have hs := r2.state
  rw [digest, show padded m = m ++ 0x80 :: List.replicate ((119 - m.length % 64) % 64) 0 ++ bytes 8 (8 * m.length) from rfl, ← hs]
  rw [putLong_low, putLong_low, putLong_low, putLong_low]
  rfl

/-! ### The properties -/

/-- The digest is the one of the whole message, for any cut in parts and whatever the memory of the context. -/
theorem C62_parts (stack : Ctx) (hb : stack.buffer.length = 64) (parts : List (List Byte))
    (hp : ∀ p ∈ parts, p.length < 2 ^ 31) : md5File stack parts = digest parts.flatten := by
  have := (updates_rep parts (starts stack) [] (starts_rep stack hb) hp).1
  exact (finish_rep _ _ this).1

/-- In one call. -/
theorem C62_md5 (stack : Ctx) (hb : stack.buffer.length = 64) (m : List Byte) (hm : m.length < 2 ^ 31) :
    md5 stack m = digest m := by
  have := C62_parts stack hb [m] (by simpa using hm)
  rw [List.flatten_cons, List.flatten_nil, List.append_nil] at this
  exact this

theorem pad_eq (b : Byte) (k : List Byte) :
    pad b k = (k ++ List.replicate (64 - k.length) 0).map (· ^^^ b) := by
  rw [pad, List.map_append, List.map_replicate]
  congr 1
  · exact List.map_congr_left fun x _ => BitVec.xor_comm ..
  · congr 1
    simp

/-- The keyed code is the one of RFC 2104, for any cut of the message. -/
theorem C62_hmac (ctx stack : Ctx) (hc : ctx.buffer.length = 64) (hs : stack.buffer.length = 64) (k : List Byte)
    (hk : k.length < 2 ^ 31) (parts : List (List Byte)) (hp : ∀ p ∈ parts, p.length < 2 ^ 31) :
    hmacFinish (parts.foldl update (hmacStarts ctx stack k)) = code k parts.flatten := by
  have hkey : (if k.length > 64 then md5 stack k else k) = (if k.length ≤ 64 then k else digest k) := by
    rw [C62_md5 stack hs k hk]
    split <;> split <;> first | rfl | omega
  have hlen : (if k.length ≤ 64 then k else digest k).length ≤ 64 := by
    split
    · assumption
    · simp [digest, bytes_length]
  have hi : pad 0x36 (if k.length > 64 then md5 stack k else k) = (key64 k).map (· ^^^ 0x36) := by rw [hkey, pad_eq]; rfl
  have ho : pad 0x5C (if k.length > 64 then md5 stack k else k) = (key64 k).map (· ^^^ 0x5c) := by rw [hkey, pad_eq]; rfl
  have h64 : (key64 k).length = 64 := by
    rw [key64, List.length_append, List.length_replicate]
    omega
  obtain ⟨r1, _, o1⟩ := update_rep
    (starts { ctx with ipad := pad 0x36 (if k.length > 64 then md5 stack k else k),
                       opad := pad 0x5C (if k.length > 64 then md5 stack k else k) }) [] ((key64 k).map (· ^^^ 0x36))
    (starts_rep _ hc) (by rw [List.length_map, h64]; decide)
  have e : hmacStarts ctx stack k = update
    (starts { ctx with ipad := pad 0x36 (if k.length > 64 then md5 stack k else k),
                       opad := pad 0x5C (if k.length > 64 then md5 stack k else k) }) ((key64 k).map (· ^^^ 0x36)) := by
    rw [← hi]
    rfl
  rw [← e] at r1 o1
  obtain ⟨r2, _, o2⟩ := updates_rep parts _ _ r1 hp
  obtain ⟨f1, f2, _, f4⟩ := finish_rep _ _ r2
  have hop : (finish (parts.foldl update (hmacStarts ctx stack k))).1.opad = (key64 k).map (· ^^^ 0x5c) := by
    rw [f4, o2, o1]
    exact ho
  rw [hmacFinish, f1, show (starts (finish (parts.foldl update (hmacStarts ctx stack k))).1).opad = _ from hop]
  obtain ⟨r3, _, _⟩ := update_rep (starts (finish (parts.foldl update (hmacStarts ctx stack k))).1) []
    ((key64 k).map (· ^^^ 0x5c)) (starts_rep _ f2) (by rw [List.length_map, h64]; decide)
  obtain ⟨r4, _, _⟩ := update_rep _ _ (digest ([] ++ (key64 k).map (· ^^^ 0x36) ++ parts.flatten)) r3
    (by simp [digest, bytes_length])
  rw [(finish_rep _ _ r4).1, code]
  rfl

/-! ### Examples -/

def junk : Ctx := ⟨3, 4, 5, 6, 7, 8, List.replicate 64 0xAA, [], []⟩

def text (s : String) : List Byte := s.toList.map fun c => BitVec.ofNat 8 c.toNat

/-- "message digest" is f96b697d7cb7938d525a2f31aaf161d0, in two parts too. -/
example : digest (text "message digest") = bytes 16 0xd061f1aa312f5a528d93b77c7d696bf9 := by decide +kernel

example : md5File junk [text "message", [], text " digest"] = bytes 16 0xd061f1aa312f5a528d93b77c7d696bf9 := by decide +kernel

example : digest (List.replicate 8 (text "1234567890")).flatten = bytes 16 0x7ab607212eda49ac55c9e32ba2f4ed57 := by
  decide +kernel

/-- "what do ya want for nothing?" with the key "Jefe"; a key of 70 bytes. -/
example : code (text "Jefe") (text "what do ya want for nothing?") = bytes 16 0x38b75d0a316ea8ea03b5b06a3e780c75 := by
  decide +kernel

example : code (List.replicate 70 0x6b) (List.replicate 60 0x78) = bytes 16 0x915943415586d7866c9a1a81daabd74c := by
  decide +kernel

/-- The hypotheses hold for a context full of rubbish. -/
example : hmac junk junk (List.replicate 70 0x6b) (List.replicate 60 0x78) =
    code (List.replicate 70 0x6b) (List.replicate 60 0x78) := by
  have := C62_hmac junk junk rfl rfl (List.replicate 70 0x6b) (by simp) [List.replicate 60 0x78] (by simp)
  rw [List.flatten_cons, List.flatten_nil, List.append_nil] at this
  exact this

end Props.Md5
