/-! # Model of `src/primitives/calc_crc.c` -/

namespace Verif.Crc

/-- The table `magic` (calc_crc.c:22-55). -/
def magic : List Nat :=
  [0x0000, 0x1021, 0x2042, 0x3063, 0x4084, 0x50a5, 0x60c6, 0x70e7,
   0x8108, 0x9129, 0xa14a, 0xb16b, 0xc18c, 0xd1ad, 0xe1ce, 0xf1ef,
   0x1231, 0x0210, 0x3273, 0x2252, 0x52b5, 0x4294, 0x72f7, 0x62d6,
   0x9339, 0x8318, 0xb37b, 0xa35a, 0xd3bd, 0xc39c, 0xf3ff, 0xe3de,
   0x2462, 0x3443, 0x0420, 0x1401, 0x64e6, 0x74c7, 0x44a4, 0x5485,
   0xa56a, 0xb54b, 0x8528, 0x9509, 0xe5ee, 0xf5cf, 0xc5ac, 0xd58d,
   0x3653, 0x2672, 0x1611, 0x0630, 0x76d7, 0x66f6, 0x5695, 0x46b4,
   0xb75b, 0xa77a, 0x9719, 0x8738, 0xf7df, 0xe7fe, 0xd79d, 0xc7bc,
   0x48c4, 0x58e5, 0x6886, 0x78a7, 0x0840, 0x1861, 0x2802, 0x3823,
   0xc9cc, 0xd9ed, 0xe98e, 0xf9af, 0x8948, 0x9969, 0xa90a, 0xb92b,
   0x5af5, 0x4ad4, 0x7ab7, 0x6a96, 0x1a71, 0x0a50, 0x3a33, 0x2a12,
   0xdbfd, 0xcbdc, 0xfbbf, 0xeb9e, 0x9b79, 0x8b58, 0xbb3b, 0xab1a,
   0x6ca6, 0x7c87, 0x4ce4, 0x5cc5, 0x2c22, 0x3c03, 0x0c60, 0x1c41,
   0xedae, 0xfd8f, 0xcdec, 0xddcd, 0xad2a, 0xbd0b, 0x8d68, 0x9d49,
   0x7e97, 0x6eb6, 0x5ed5, 0x4ef4, 0x3e13, 0x2e32, 0x1e51, 0x0e70,
   0xff9f, 0xefbe, 0xdfdd, 0xcffc, 0xbf1b, 0xaf3a, 0x9f59, 0x8f78,
   0x9188, 0x81a9, 0xb1ca, 0xa1eb, 0xd10c, 0xc12d, 0xf14e, 0xe16f,
   0x1080, 0x00a1, 0x30c2, 0x20e3, 0x5004, 0x4025, 0x7046, 0x6067,
   0x83b9, 0x9398, 0xa3fb, 0xb3da, 0xc33d, 0xd31c, 0xe37f, 0xf35e,
   0x02b1, 0x1290, 0x22f3, 0x32d2, 0x4235, 0x5214, 0x6277, 0x7256,
   0xb5ea, 0xa5cb, 0x95a8, 0x8589, 0xf56e, 0xe54f, 0xd52c, 0xc50d,
   0x34e2, 0x24c3, 0x14a0, 0x0481, 0x7466, 0x6447, 0x5424, 0x4405,
   0xa7db, 0xb7fa, 0x8799, 0x97b8, 0xe75f, 0xf77e, 0xc71d, 0xd73c,
   0x26d3, 0x36f2, 0x0691, 0x16b0, 0x6657, 0x7676, 0x4615, 0x5634,
   0xd94c, 0xc96d, 0xf90e, 0xe92f, 0x99c8, 0x89e9, 0xb98a, 0xa9ab,
   0x5844, 0x4865, 0x7806, 0x6827, 0x18c0, 0x08e1, 0x3882, 0x28a3,
   0xcb7d, 0xdb5c, 0xeb3f, 0xfb1e, 0x8bf9, 0x9bd8, 0xabbb, 0xbb9a,
   0x4a75, 0x5a54, 0x6a37, 0x7a16, 0x0af1, 0x1ad0, 0x2ab3, 0x3a92,
   0xfd2e, 0xed0f, 0xdd6c, 0xcd4d, 0xbdaa, 0xad8b, 0x9de8, 0x8dc9,
   0x7c26, 0x6c07, 0x5c64, 0x4c45, 0x3ca2, 0x2c83, 0x1ce0, 0x0cc1,
   0xef1f, 0xff3e, 0xcf5d, 0xdf7c, 0xaf9b, 0xbfba, 0x8fd9, 0x9ff8,
   0x6e17, 0x7e36, 0x4e55, 0x5e74, 0x2e93, 0x3eb2, 0x0ed1, 0x1ef0]

/-- `magic[(unsigned char) i]`; the index is always inside the table. -/
def lookup (i : BitVec 8) : BitVec 32 := BitVec.ofNat 32 (magic.getD i.toNat 0)

/-- The body of the loop (calc_crc.c:80-82); `hold` is an `int`, never negative here. -/
def step (hold : BitVec 32) (b : BitVec 8) : BitVec 32 :=
  let hold := hold ^^^ (b.setWidth 32 <<< 8)
  let hold := (hold <<< 8) ^^^ lookup ((hold >>> 8).setWidth 8)
  hold &&& 0xffff#32

/-- The bytes visited by `for (i = 0; i < len; i += stride, buffer += stride)` (calc_crc.c:79), for
`stride >= 1`; `none` when one of them lies outside the buffer. -/
def visited (buf : List (BitVec 8)) (len stride i : Nat) : Option (List (BitVec 8)) :=
  if h : stride = 0 ∨ len ≤ i then some []
  else
    match buf[i]?, visited buf len stride (i + stride) with
    | some b, some r => some (b :: r)
    | _, _ => none
termination_by len - i
decreasing_by omega

/-- `calc_crc` (calc_crc.c:64-85). -/
def calcCrc (buf : List (BitVec 8)) (len : Nat) (seed : BitVec 32) (stride : Nat) : Option (BitVec 32) :=
  (visited buf len stride 0).map fun bs => bs.foldl step (seed &&& 0xffff#32)

/-! ## Specification: division by the polynomial x^16 + x^12 + x^5 + 1, bit by bit -/

/-- One bit of long division. -/
def shift1 (h : BitVec 16) : BitVec 16 := (h <<< 1) ^^^ (if h.msb then 0x1021#16 else 0#16)

/-- Feed one message bit. -/
def feed (h : BitVec 16) (b : Bool) : BitVec 16 := shift1 (h ^^^ (if b then 0x8000#16 else 0#16))

/-- Bits of a byte, most significant first. -/
def byteBits (b : BitVec 8) : List Bool :=
  [b.getLsbD 7, b.getLsbD 6, b.getLsbD 5, b.getLsbD 4, b.getLsbD 3, b.getLsbD 2, b.getLsbD 1, b.getLsbD 0]

def bufBits (l : List (BitVec 8)) : List Bool := l.flatMap byteBits

/-- The remainder register after a bit string. -/
def crcBits (h : BitVec 16) (l : List Bool) : BitVec 16 := l.foldl feed h

/-! ## Lemmas -/

theorem xor_left_comm (a b c : BitVec 16) : a ^^^ (b ^^^ c) = b ^^^ (a ^^^ c) := by
  rw [← BitVec.xor_assoc, BitVec.xor_comm a b, BitVec.xor_assoc]

theorem xor_cancel (a b : BitVec 16) : a ^^^ (b ^^^ a) = b := by
  rw [xor_left_comm, BitVec.xor_self, BitVec.xor_zero]

theorem shift1_xor (a b : BitVec 16) : shift1 (a ^^^ b) = shift1 a ^^^ shift1 b := by
  simp only [shift1, BitVec.shiftLeft_xor_distrib, BitVec.msb_xor]
  cases a.msb <;> cases b.msb <;> simp [BitVec.xor_assoc, BitVec.xor_comm, xor_left_comm, xor_cancel]

def shiftN : Nat → BitVec 16 → BitVec 16
  | 0, h => h
  | n+1, h => shiftN n (shift1 h)

theorem shiftN_xor (n : Nat) (a b : BitVec 16) : shiftN n (a ^^^ b) = shiftN n a ^^^ shiftN n b := by
  induction n generalizing a b with
  | zero => rfl
  | succ n ih => simp only [shiftN, shift1_xor, ih]

theorem shift1_inj {a b : BitVec 16} (h : shift1 a = shift1 b) : a = b := by
  have h0 : ∀ a : BitVec 16, (shift1 a).getLsbD 0 = a.msb := by
    intro a
    simp only [shift1, BitVec.getLsbD_xor, BitVec.getLsbD_shiftLeft]
    cases a.msb <;> simp
  have hm : a.msb = b.msb := by rw [← h0, ← h0, h]
  have hs : a <<< 1 = b <<< 1 := by
    have h' := h
    simp only [shift1, hm] at h'
    exact (BitVec.xor_left_inj _).1 h'
  apply BitVec.eq_of_getLsbD_eq
  intro i hi
  by_cases h15 : i = 15
  · subst h15
    simpa [BitVec.msb_eq_getLsbD_last] using hm
  · have := congrArg (fun x => x.getLsbD (i + 1)) hs
    simp only [BitVec.getLsbD_shiftLeft] at this
    simpa [show i + 1 < 16 by omega] using this

theorem shiftN_inj {n : Nat} {a b : BitVec 16} (h : shiftN n a = shiftN n b) : a = b := by
  induction n generalizing a b with
  | zero => exact h
  | succ n ih => exact shift1_inj (ih h)

theorem shift1_of_msb {y : BitVec 16} (h : y.msb = false) : shift1 y = y <<< 1 := by
  simp [shift1, h]

/-- The first bits of a string as the leading bits of a 16-bit word. -/
def place : List Bool → BitVec 16
  | [] => 0
  | b :: l => (if b then 0x8000#16 else 0#16) ^^^ (place l >>> 1)

theorem place_low (l : List Bool) (i : Nat) (hi : i + l.length < 16) : (place l).getLsbD i = false := by
  induction l generalizing i with
  | nil => simp [place]
  | cons b l ih =>
    simp only [List.length_cons] at hi
    simp only [place, BitVec.getLsbD_xor, BitVec.getLsbD_ushiftRight]
    rw [ih (1 + i) (by omega)]
    have : (0x8000#16).getLsbD i = false := by
      have hi : i < 15 := by omega
      have hd : ∀ j : Fin 15, (0x8000#16).getLsbD j = false := by decide
      exact hd ⟨i, hi⟩
    cases b <;> simp [this]

theorem crcBits_place (l : List Bool) (hl : l.length ≤ 16) (h : BitVec 16) :
    crcBits h l = shiftN l.length (h ^^^ place l) := by
  induction l generalizing h with
  | nil => simp [crcBits, place, shiftN]
  | cons b l ih =>
    simp only [List.length_cons] at hl
    have h1 : crcBits h (b :: l) = crcBits (feed h b) l := rfl
    rw [h1, ih (by omega)]
    simp only [List.length_cons, shiftN, place]
    congr 1
    rw [← BitVec.xor_assoc, shift1_xor, feed]
    congr 1
    rw [shift1_of_msb (by simp [BitVec.msb_eq_getLsbD_last])]
    apply BitVec.eq_of_getLsbD_eq
    intro i hi
    rw [BitVec.getLsbD_shiftLeft, BitVec.getLsbD_ushiftRight]
    by_cases h0 : i = 0
    · subst h0; simp; exact place_low l 0 (by omega)
    · have h1 : ¬ i < 1 := by omega
      have h2 : 1 + (i - 1) = i := by omega
      simp [hi, h1, h2]

theorem place_inj (a b : List Bool) (hl : a.length = b.length) (h16 : a.length ≤ 16) (h : place a = place b) : a = b := by
  induction a generalizing b with
  | nil => cases b with
    | nil => rfl
    | cons _ _ => simp at hl
  | cons x a ih => cases b with
    | nil => simp at hl
    | cons y b =>
      simp only [List.length_cons] at hl h16
      have htop : ∀ (x : Bool) (l : List Bool), (place (x :: l)).getLsbD 15 = x := by
        intro x l
        simp only [place, BitVec.getLsbD_xor, BitVec.getLsbD_ushiftRight]
        cases x <;> simp
      have hxy : x = y := by rw [← htop x a, ← htop y b, h]
      subst hxy
      congr 1
      apply ih b (by omega) (by omega)
      simp only [place] at h
      have h' := (BitVec.xor_right_inj _).1 h
      apply BitVec.eq_of_getLsbD_eq
      intro i hi
      by_cases h0 : i = 0
      · subst h0
        rw [place_low a 0 (by omega), place_low b 0 (by omega)]
      · have := congrArg (fun x => x.getLsbD (i - 1)) h'
        simp only [BitVec.getLsbD_ushiftRight] at this
        rwa [show 1 + (i - 1) = i by omega] at this

theorem crcBits_append (h : BitVec 16) (a b : List Bool) : crcBits h (a ++ b) = crcBits (crcBits h a) b := by
  simp [crcBits]

theorem feed_inj {a b : BitVec 16} {c : Bool} (h : feed a c = feed b c) : a = b :=
  (BitVec.xor_left_inj _).1 (shift1_inj h)

theorem crcBits_inj {a b : BitVec 16} {l : List Bool} (h : crcBits a l = crcBits b l) : a = b := by
  induction l generalizing a b with
  | nil => exact h
  | cons c l ih => exact feed_inj (ih h)

theorem feed_xor (a b : BitVec 16) (x y : Bool) : feed (a ^^^ b) (x ^^ y) = feed a x ^^^ feed b y := by
  simp only [feed]
  rw [← shift1_xor]
  congr 1
  cases x <;> cases y <;> simp [BitVec.xor_assoc, BitVec.xor_comm, xor_left_comm, xor_cancel]

theorem lookup_eq (i : BitVec 8) : lookup i = (shiftN 8 (i.setWidth 16 <<< 8)).setWidth 32 := by
  have h : ∀ i : Fin (2 ^ 8), lookup (BitVec.ofFin i : BitVec 8) = (shiftN 8 ((BitVec.ofFin i : BitVec 8).setWidth 16 <<< 8)).setWidth 32 := by
    decide +kernel
  exact h i.toFin

theorem shift8_low (i : BitVec 8) : shiftN 8 (i.setWidth 16) = i.setWidth 16 <<< 8 := by
  have h : ∀ i : Fin (2 ^ 8), shiftN 8 ((BitVec.ofFin i : BitVec 8).setWidth 16) = (BitVec.ofFin i : BitVec 8).setWidth 16 <<< 8 := by
    decide +kernel
  exact h i.toFin

theorem place_byte (b : BitVec 8) : place (byteBits b) = b.setWidth 16 <<< 8 := by
  have h : ∀ i : Fin (2 ^ 8), place (byteBits (BitVec.ofFin i : BitVec 8)) = (BitVec.ofFin i : BitVec 8).setWidth 16 <<< 8 := by
    decide +kernel
  exact h b.toFin

theorem step_eq (h : BitVec 16) (b : BitVec 8) :
    step (h.setWidth 32) b = (crcBits h (byteBits b)).setWidth 32 := by
  rw [crcBits_place _ (by simp [byteBits]), place_byte, show (byteBits b).length = 8 from rfl]
  generalize hg : h ^^^ (b.setWidth 16 <<< 8) = g
  have h1 : h.setWidth 32 ^^^ (b.setWidth 32 <<< 8) = g.setWidth 32 := by
    rw [← hg]
    apply BitVec.eq_of_getLsbD_eq
    intro i hi
    simp only [BitVec.getLsbD_xor, BitVec.getLsbD_setWidth, BitVec.getLsbD_shiftLeft, hi, decide_true, Bool.true_and]
    by_cases h16 : i < 16
    · by_cases h8 : i < 8
      · simp [h16, h8]
      · have : i - 8 < 16 := by omega
        have : i - 8 < 32 := by omega
        simp [h16, h8, *]
    · have hh : h.getLsbD i = false := BitVec.getLsbD_of_ge _ _ (by omega)
      have hb : b.getLsbD (i - 8) = false := BitVec.getLsbD_of_ge _ _ (by omega)
      simp [hh, hb]
  have hsplit : g = ((g >>> 8).setWidth 8 : BitVec 8).setWidth 16 <<< 8 ^^^ (g.setWidth 8 : BitVec 8).setWidth 16 := by
    apply BitVec.eq_of_getLsbD_eq
    intro i hi
    simp only [BitVec.getLsbD_xor, BitVec.getLsbD_setWidth, BitVec.getLsbD_shiftLeft, BitVec.getLsbD_ushiftRight, hi,
      decide_true, Bool.true_and]
    by_cases h8 : i < 8
    · simp [h8]
    · have a1 : i - 8 < 16 := by omega
      have a2 : i - 8 < 8 := by omega
      have a3 : 8 + (i - 8) = i := by omega
      simp [h8, a1, a2, a3]
  have hidx : ((g.setWidth 32 >>> 8).setWidth 8 : BitVec 8) = (g >>> 8).setWidth 8 := by
    apply BitVec.eq_of_getLsbD_eq
    intro i hi
    simp only [BitVec.getLsbD_setWidth, BitVec.getLsbD_ushiftRight, hi, decide_true, Bool.true_and]
    simp [show 8 + i < 32 by omega]
  simp only [step, h1, hidx, lookup_eq]
  conv => rhs; rw [hsplit, shiftN_xor, shift8_low]
  generalize shiftN 8 (((g >>> 8).setWidth 8 : BitVec 8).setWidth 16 <<< 8) = t
  apply BitVec.eq_of_getLsbD_eq
  intro i hi
  have hmask : (0xffff#32).getLsbD i = decide (i < 16) := by
    have : ∀ j : Fin 32, (0xffff#32).getLsbD j = decide (j.val < 16) := by decide
    exact this ⟨i, hi⟩
  simp only [BitVec.getLsbD_and, BitVec.getLsbD_xor, BitVec.getLsbD_setWidth, BitVec.getLsbD_shiftLeft, hi,
    decide_true, Bool.true_and, hmask]
  by_cases h16 : i < 16
  · by_cases h8 : i < 8
    · simp [h16, h8]
    · have a1 : i - 8 < 16 := by omega
      have a2 : i - 8 < 8 := by omega
      have a3 : i - 8 < 32 := by omega
      simp [h16, h8, a1, a2, a3, Bool.xor_comm]
  · have : t.getLsbD i = false := BitVec.getLsbD_of_ge _ _ (by omega)
    simp [h16, this]

theorem fold_eq (l : List (BitVec 8)) (h : BitVec 16) :
    l.foldl step (h.setWidth 32) = (crcBits h (bufBits l)).setWidth 32 := by
  induction l generalizing h with
  | nil => rfl
  | cons b l ih =>
    have : bufBits (b :: l) = byteBits b ++ bufBits l := by simp [bufBits]
    rw [List.foldl_cons, step_eq, ih, this, crcBits_append]

theorem visited_all (buf : List (BitVec 8)) (i : Nat) (hi : i ≤ buf.length) : visited buf buf.length 1 i = some (buf.drop i) := by
  induction hk : buf.length - i generalizing i with
  | zero => rw [visited, dif_pos (by omega), List.drop_of_length_le (by omega)]
  | succ k ih =>
    rw [visited, dif_neg (by omega), ih (i + 1) (by omega) (by omega), List.getElem?_eq_getElem (by omega)]
    simp

end Verif.Crc
