import Verif.Props.Crc3

/-! # C73: what `update_crc_ne` and `f_crc32` compute -/

namespace Verif.Crc3

open Polynomial

/-! ### Registers shifted to the right -/

def rshift1 {w : Nat} (Q r : BitVec w) : BitVec w := (r >>> 1) ^^^ (if r.getLsbD 0 then Q else 0#w)

def rfeed {w : Nat} (Q r : BitVec w) (b : Bool) : BitVec w :=
  rshift1 Q (r ^^^ if b then 1#w else 0#w)

def rshiftN {w : Nat} (Q : BitVec w) : Nat → BitVec w → BitVec w
  | 0, r => r
  | n + 1, r => rshiftN Q n (rshift1 Q r)

theorem xor_swap {w : Nat} (a b c d : BitVec w) : (a ^^^ b) ^^^ (c ^^^ d) = (a ^^^ c) ^^^ (b ^^^ d) := by
  apply BitVec.eq_of_getLsbD_eq
  intro i _
  simp only [BitVec.getLsbD_xor]
  cases a.getLsbD i <;> cases b.getLsbD i <;> cases c.getLsbD i <;> cases d.getLsbD i <;> rfl

theorem rshift1_xor {w : Nat} (Q a b : BitVec w) :
    rshift1 Q (a ^^^ b) = rshift1 Q a ^^^ rshift1 Q b := by
  simp only [rshift1, BitVec.ushiftRight_xor_distrib, BitVec.getLsbD_xor]
  rw [xor_swap]
  congr 1
  cases a.getLsbD 0 <;> cases b.getLsbD 0 <;> simp

theorem rshiftN_xor {w : Nat} (Q : BitVec w) (n : Nat) : ∀ a b : BitVec w,
    rshiftN Q n (a ^^^ b) = rshiftN Q n a ^^^ rshiftN Q n b := by
  induction n with
  | zero => intro a b; rfl
  | succ n ih => intro a b; simp only [rshiftN, rshift1_xor, ih]

theorem rshiftN_low {w : Nat} (Q : BitVec w) (n : Nat) : ∀ a : BitVec w,
    (∀ i, i < n → a.getLsbD i = false) → rshiftN Q n a = a >>> n := by
  induction n with
  | zero => intro a _; simp [rshiftN]
  | succ n ih =>
    intro a h
    have h0 : rshift1 Q a = a >>> 1 := by simp [rshift1, h 0 (by omega)]
    rw [rshiftN, h0, ih]
    · rw [← BitVec.shiftRight_add, Nat.add_comm]
    · intro i hi
      rw [BitVec.getLsbD_ushiftRight]
      exact h _ (by omega)

def rplace (w : Nat) : List Bool → BitVec w
  | [] => 0#w
  | b :: l => (if b then 1#w else 0#w) ^^^ (rplace w l <<< 1)

theorem rplace_high (w : Nat) (l : List Bool) : ∀ i, l.length ≤ i → (rplace w l).getLsbD i = false := by
  induction l with
  | nil => intro i _; simp [rplace]
  | cons b l ih =>
    intro i hi
    rw [List.length_cons] at hi
    simp only [rplace, BitVec.getLsbD_xor, BitVec.getLsbD_shiftLeft]
    rw [ih (i - 1) (by omega)]
    have : i ≠ 0 := by omega
    cases b <;> simp [BitVec.getLsbD_one, this]

theorem rfold_place {w : Nat} (Q : BitVec w) : ∀ (l : List Bool), l.length ≤ w → ∀ r : BitVec w,
    l.foldl (rfeed Q) r = rshiftN Q l.length (r ^^^ rplace w l)
  | [], _, r => by simp [rplace, rshiftN]
  | b :: l, h, r => by
    rw [List.length_cons] at h
    rw [List.foldl_cons, rfold_place Q l (by omega), List.length_cons, rshiftN, rplace, rfeed,
      ← BitVec.xor_assoc, rshift1_xor Q (r ^^^ _)]
    congr 2
    have h0 : (rplace w l <<< 1).getLsbD 0 = false := by simp [BitVec.getLsbD_shiftLeft]
    rw [rshift1, h0]
    simp only [Bool.false_eq_true, if_false, BitVec.xor_zero]
    apply BitVec.eq_of_getLsbD_eq
    intro i hi
    rw [BitVec.getLsbD_ushiftRight, BitVec.getLsbD_shiftLeft]
    by_cases hl : i + 1 < w
    · simp [show 1 + i < w by omega]
    · rw [rplace_high w l i (by omega)]
      simp [show ¬ (1 + i < w) by omega]

/-- The bits of a byte, the lowest one first. -/
def lowFirst (b : BitVec 8) : List Bool :=
  [b.getLsbD 0, b.getLsbD 1, b.getLsbD 2, b.getLsbD 3, b.getLsbD 4, b.getLsbD 5, b.getLsbD 6,
   b.getLsbD 7]

/-- The bits of a byte, the highest one first. -/
def highFirst (b : BitVec 8) : List Bool := (lowFirst b).reverse

theorem rplace_byte {w : Nat} (hw : 8 ≤ w) (b : BitVec 8) : rplace w (lowFirst b) = b.setWidth w := by
  have key : ∀ (l : List Bool) (i : Nat), l.length ≤ w → (rplace w l).getLsbD i = (l[i]?).getD false := by
    intro l
    induction l with
    | nil => intro i _; simp [rplace]
    | cons c l ih =>
      intro i h
      rw [List.length_cons] at h
      simp only [rplace, BitVec.getLsbD_xor, BitVec.getLsbD_shiftLeft]
      cases i with
      | zero => cases c <;> simp [BitVec.getLsbD_one] <;> omega
      | succ i =>
        rw [Nat.add_sub_cancel, ih i (by omega)]
        have h1 : ∀ c : Bool, (if c = true then 1#w else 0#w).getLsbD (i + 1) = false := by
          intro c; cases c <;> simp [BitVec.getLsbD_one]
        rw [h1]
        by_cases hi : i + 1 < w
        · simp [hi]
        · have : l[i]? = none := List.getElem?_eq_none (by omega)
          simp [hi, this]
  apply BitVec.eq_of_getLsbD_eq
  intro i hi
  rw [key _ _ (by simpa [lowFirst] using hw), BitVec.getLsbD_setWidth]
  simp only [hi, decide_true, Bool.true_and]
  rcases Nat.lt_or_ge i 8 with h8 | h8
  · have : i = 0 ∨ i = 1 ∨ i = 2 ∨ i = 3 ∨ i = 4 ∨ i = 5 ∨ i = 6 ∨ i = 7 := by omega
    rcases this with rfl | rfl | rfl | rfl | rfl | rfl | rfl | rfl <;> rfl
  · rw [List.getElem?_eq_none (by simpa [lowFirst] using h8), BitVec.getLsbD_of_ge _ _ h8]
    rfl

theorem and_low {w : Nat} (hw : 8 ≤ w) (x : BitVec w) :
    x = (x.setWidth 8).setWidth w ^^^ ((x >>> 8) <<< 8) := by
  apply BitVec.eq_of_getLsbD_eq
  intro i hi
  simp only [BitVec.getLsbD_xor, BitVec.getLsbD_setWidth, BitVec.getLsbD_shiftLeft,
    BitVec.getLsbD_ushiftRight, hi, decide_true, Bool.true_and]
  by_cases h8 : i < 8
  · simp [h8]
  · simp [h8, show 8 + (i - 8) = i by omega]

/-- The table driven step, in general. -/
theorem rtable {w : Nat} (hw : 8 ≤ w) (Q : BitVec w) (r : BitVec w) (b : BitVec 8) :
    (lowFirst b).foldl (rfeed Q) r
      = rshiftN Q 8 (((r ^^^ b.setWidth w).setWidth 8).setWidth w) ^^^ (r >>> 8) := by
  rw [rfold_place Q _ (by simpa [lowFirst] using hw), rplace_byte hw,
    show (lowFirst b).length = 8 from rfl]
  conv => lhs; rw [and_low hw (r ^^^ b.setWidth w), rshiftN_xor]
  congr 1
  rw [rshiftN_low]
  · apply BitVec.eq_of_getLsbD_eq
    intro i hi
    simp only [BitVec.getLsbD_ushiftRight, BitVec.getLsbD_shiftLeft, BitVec.getLsbD_xor,
      BitVec.getLsbD_setWidth]
    have hb : b.getLsbD (8 + i) = false := BitVec.getLsbD_of_ge _ _ (by omega)
    by_cases hi2 : 8 + i < w
    · simp [hi2, hb]
    · have hr : r.getLsbD (8 + i) = false := BitVec.getLsbD_of_ge _ _ (by omega)
      simp [hi2, hr]
  · intro i hi
    simp [BitVec.getLsbD_shiftLeft, hi]

/-- The two kinds of registers. -/
theorem reverse_feed {w : Nat} (hw : 0 < w) (P r : BitVec w) (b : Bool) :
    (feed P r b).reverse = rfeed P.reverse r.reverse b := by
  have hx : (r ^^^ top w b).reverse = r.reverse ^^^ if b then 1#w else 0#w := by
    apply BitVec.eq_of_getLsbD_eq
    intro i hi
    rw [BitVec.getLsbD_reverse, BitVec.getMsbD_xor, BitVec.getLsbD_xor, BitVec.getLsbD_reverse]
    congr 1
    cases b
    · simp [top]
    · simp only [top, if_true, BitVec.getMsbD, BitVec.getLsbD_twoPow, BitVec.getLsbD_one, hi,
        decide_true, Bool.true_and, hw]
      by_cases h0 : i = 0
      · subst h0; simp; omega
      · simp [h0]; omega
  have hs : ∀ x : BitVec w, (shift1 P x).reverse = rshift1 P.reverse x.reverse := by
    intro x
    apply BitVec.eq_of_getLsbD_eq
    intro i hi
    rw [BitVec.getLsbD_reverse, shift1, BitVec.getMsbD_xor, rshift1, BitVec.getLsbD_xor,
      BitVec.getLsbD_ushiftRight, BitVec.getLsbD_reverse, BitVec.getLsbD_reverse]
    have hm : x.getMsbD 0 = x.msb := rfl
    rw [hm]
    congr 1
    · simp only [BitVec.getMsbD, BitVec.getLsbD_shiftLeft, hi, decide_true, Bool.true_and]
      by_cases h1 : 1 + i < w
      · have a1 : w - 1 - i < w := by omega
        have a2 : ¬ (w - 1 - i < 1) := by omega
        have a3 : w - 1 - i - 1 = w - 1 - (1 + i) := by omega
        simp [h1, a1, a2, a3]
      · have : w - 1 - i < 1 := by omega
        simp [h1, this]
    · cases x.msb
      · simp
      · simp [BitVec.getLsbD_reverse]
  rw [feed, hs, hx, rfeed]

theorem reverse_divide {w : Nat} (hw : 0 < w) (P : BitVec w) : ∀ (l : List Bool) (r : BitVec w),
    (divide P r l).reverse = l.foldl (rfeed P.reverse) r.reverse
  | [], _ => rfl
  | b :: l, r => by
    rw [divide, List.foldl_cons, List.foldl_cons, ← reverse_feed hw]
    exact reverse_divide hw P l _

/-! ### The register shifted to the left -/

def shiftN {w : Nat} (P : BitVec w) : Nat → BitVec w → BitVec w
  | 0, r => r
  | n + 1, r => shiftN P n (shift1 P r)

theorem reverse_shiftN {w : Nat} (hw : 0 < w) (P : BitVec w) : ∀ (n : Nat) (r : BitVec w),
    (shiftN P n r).reverse = rshiftN P.reverse n r.reverse
  | 0, _ => rfl
  | n + 1, r => by
    rw [shiftN, rshiftN, reverse_shiftN hw P n]
    have := reverse_feed hw P r false
    simp only [feed, top, rfeed, Bool.false_eq_true, if_false, BitVec.xor_zero] at this
    rw [this]

theorem reverse_inj {w : Nat} {a b : BitVec w} (h : a.reverse = b.reverse) : a = b := by
  rw [← BitVec.reverse_reverse_eq (x := a), h, BitVec.reverse_reverse_eq]

theorem shift1_xor {w : Nat} (hw : 0 < w) (P a b : BitVec w) :
    shift1 P (a ^^^ b) = shift1 P a ^^^ shift1 P b := by
  simp only [shift1, BitVec.shiftLeft_xor_distrib, BitVec.msb_xor]
  rw [xor_swap]
  congr 1
  cases a.msb <;> cases b.msb <;> simp

theorem shiftN_xor {w : Nat} (hw : 0 < w) (P : BitVec w) (n : Nat) : ∀ a b : BitVec w,
    shiftN P n (a ^^^ b) = shiftN P n a ^^^ shiftN P n b := by
  induction n with
  | zero => intro a b; rfl
  | succ n ih => intro a b; simp only [shiftN, shift1_xor hw, ih]

theorem shiftN_high {w : Nat} (P : BitVec w) (n : Nat) : ∀ a : BitVec w, n ≤ w →
    (∀ i, w - n ≤ i → a.getLsbD i = false) → shiftN P n a = a <<< n := by
  induction n with
  | zero => intro a _ _; simp [shiftN]
  | succ n ih =>
    intro a hn h
    have hm : a.msb = false := by
      rw [BitVec.msb_eq_getLsbD_last]; exact h _ (by omega)
    have h0 : shift1 P a = a <<< 1 := by simp [shift1, hm]
    rw [shiftN, h0, ih _ (by omega)]
    · rw [← BitVec.shiftLeft_add, Nat.add_comm]
    · intro i hi
      rw [BitVec.getLsbD_shiftLeft]
      by_cases h1 : i < 1
      · simp [h1]
      · rw [h (i - 1) (by omega)]; simp

theorem fold_place24 (P r : BitVec 24) (b : BitVec 8) :
    divide P r (highFirst b) = shiftN P 8 (r ^^^ (b.setWidth 24 <<< 16)) := by
  have h : ∀ i : Fin (2 ^ 8), ∀ l, l = highFirst (BitVec.ofFin i : BitVec 8) →
      (rplace 24 l).reverse = (BitVec.ofFin i : BitVec 8).setWidth 24 <<< 16 := by
    intro i l hl
    subst hl
    revert i
    decide +kernel
  apply reverse_inj
  rw [reverse_divide (by omega), rfold_place _ _ (by simp [highFirst, lowFirst]),
    show (highFirst b).length = 8 from rfl, reverse_shiftN (by omega)]
  congr 1
  have h1 := h b.toFin _ rfl
  have h2 : (BitVec.ofFin b.toFin : BitVec 8) = b := rfl
  rw [h2] at h1
  apply reverse_inj
  rw [BitVec.reverse_reverse_eq, ← h1]
  apply BitVec.eq_of_getLsbD_eq
  intro i hi
  simp only [BitVec.getLsbD_reverse, BitVec.getMsbD_xor, BitVec.getLsbD_xor]
  congr 1
  rw [BitVec.getMsbD_reverse]

/-! ### The tables and the steps -/

theorem idx_toNat {w : Nat} (hw : 8 ≤ w) (x : BitVec w) :
    (x &&& BitVec.ofNat w 0xff).toNat = (x.setWidth 8).toNat := by
  have h8 : 255 < 2 ^ w :=
    Nat.lt_of_lt_of_le (by decide : 255 < 2 ^ 8) (Nat.pow_le_pow_right (by omega) hw)
  have h1 : (BitVec.ofNat w 0xff).toNat = 2 ^ 8 - 1 := by
    rw [BitVec.toNat_ofNat, Nat.mod_eq_of_lt h8]
    rfl
  rw [BitVec.toNat_and, h1, Nat.and_two_pow_sub_one_eq_mod, BitVec.toNat_setWidth]

theorem entry16 (i : BitVec 8) : BitVec.ofNat 16 (table16.getD i.toNat 0)
    = rshiftN (BitVec.reverse 0x8005#16) 8 (i.setWidth 16) := by
  have h : ∀ i : Fin (2 ^ 8), BitVec.ofNat 16 (table16.getD (BitVec.ofFin i : BitVec 8).toNat 0)
      = rshiftN (BitVec.reverse 0x8005#16) 8 ((BitVec.ofFin i : BitVec 8).setWidth 16) := by
    decide +kernel
  exact h i.toFin

theorem entry32 (i : BitVec 8) : BitVec.ofNat 32 (table32.getD i.toNat 0)
    = rshiftN (BitVec.reverse 0x04c11db7#32) 8 (i.setWidth 32) := by
  have h : ∀ i : Fin (2 ^ 8), BitVec.ofNat 32 (table32.getD (BitVec.ofFin i : BitVec 8).toNat 0)
      = rshiftN (BitVec.reverse 0x04c11db7#32) 8 ((BitVec.ofFin i : BitVec 8).setWidth 32) := by
    decide +kernel
  exact h i.toFin

theorem entry24 (i : BitVec 8) : BitVec.ofNat 32 (table24.getD i.toNat 0)
    = (shiftN 0x864cfb#24 8 (i.setWidth 24 <<< 16)).setWidth 32 := by
  have h : ∀ i : Fin (2 ^ 8), BitVec.ofNat 32 (table24.getD (BitVec.ofFin i : BitVec 8).toNat 0)
      = (shiftN 0x864cfb#24 8 ((BitVec.ofFin i : BitVec 8).setWidth 24 <<< 16)).setWidth 32 := by
    decide +kernel
  exact h i.toFin

theorem step16_eq (r : BitVec 16) (b : BitVec 8) :
    step16 r b = (divide 0x8005#16 r.reverse (lowFirst b)).reverse := by
  rw [reverse_divide (by omega), BitVec.reverse_reverse_eq, rtable (by omega), ← entry16,
    ← idx_toNat (by omega)]
  exact BitVec.and_allOnes

theorem do1_eq (r : BitVec 32) (b : BitVec 8) :
    do1 r b = (divide 0x04c11db7#32 r.reverse (lowFirst b)).reverse := by
  rw [reverse_divide (by omega), BitVec.reverse_reverse_eq, rtable (by omega), ← entry32,
    ← idx_toNat (by omega)]
  rfl

theorem step32_eq (r : BitVec 32) (b : BitVec 8) :
    step32 r b = (divide 0x04c11db7#32 r.reverse (lowFirst b)).reverse := by
  rw [← do1_eq]
  exact BitVec.and_allOnes

theorem mask24 (i : Nat) (hi : i < 32) : (0xffffff#32).getLsbD i = decide (i < 24) := by
  have : ∀ j : Fin 32, (0xffffff#32).getLsbD j = decide (j.val < 24) := by decide
  exact this ⟨i, hi⟩

theorem step24_eq (r : BitVec 24) (b : BitVec 8) :
    step24 (r.setWidth 32) b = (divide 0x864cfb#24 r (highFirst b)).setWidth 32 := by
  rw [fold_place24]
  generalize hx : r ^^^ (b.setWidth 24 <<< 16) = x
  have hsplit : x = ((x >>> 16).setWidth 8).setWidth 24 <<< 16 ^^^ (x.setWidth 16).setWidth 24 := by
    apply BitVec.eq_of_getLsbD_eq
    intro i hi
    simp only [BitVec.getLsbD_xor, BitVec.getLsbD_setWidth, BitVec.getLsbD_shiftLeft,
      BitVec.getLsbD_ushiftRight, hi, decide_true, Bool.true_and]
    by_cases h : i < 16
    · simp [h]
    · have a1 : i - 16 < 24 := by omega
      have a2 : i - 16 < 8 := by omega
      have a3 : 16 + (i - 16) = i := by omega
      simp [h, a1, a2, a3]
  have hidx : ((r.setWidth 32 >>> 16) ^^^ b.setWidth 32).setWidth 8 = (x >>> 16).setWidth 8 := by
    rw [← hx]
    apply BitVec.eq_of_getLsbD_eq
    intro i hi
    simp only [BitVec.getLsbD_setWidth, BitVec.getLsbD_ushiftRight, BitVec.getLsbD_xor,
      BitVec.getLsbD_shiftLeft, hi, decide_true, Bool.true_and]
    simp [show 16 + i < 32 by omega, show i < 32 by omega, show 16 + i < 24 by omega,
      show i < 24 by omega]
  conv => rhs; rw [hsplit, shiftN_xor (by omega)]
  rw [shiftN_high _ 8 ((x.setWidth 16).setWidth 24) (by omega) (fun i hi => by
    simp only [BitVec.getLsbD_setWidth]
    simp [show ¬ i < 16 by omega])]
  have he := entry24 ((x >>> 16).setWidth 8)
  simp only [step24]
  rw [show (0xff : BitVec 32) = BitVec.ofNat 32 0xff from rfl, idx_toNat (by omega), hidx, he]
  generalize shiftN 0x864cfb#24 8 (((x >>> 16).setWidth 8).setWidth 24 <<< 16) = t
  apply BitVec.eq_of_getLsbD_eq
  intro i hi
  rw [show (0xffffff : BitVec 32) = 0xffffff#32 from rfl]
  simp only [BitVec.getLsbD_and, BitVec.getLsbD_xor, BitVec.getLsbD_setWidth,
    BitVec.getLsbD_shiftLeft, hi, decide_true, Bool.true_and, mask24 i hi]
  by_cases h24 : i < 24
  · by_cases h8 : i < 8
    · simp [h24, h8]
    · have a1 : i - 8 < 24 := by omega
      have a2 : i - 8 < 16 := by omega
      have a3 : i - 8 < 32 := by omega
      have hxr : x.getLsbD (i - 8) = r.getLsbD (i - 8) := by
        rw [← hx]
        simp only [BitVec.getLsbD_xor, BitVec.getLsbD_shiftLeft]
        simp [a2]
      simp only [h24, h8, a1, a2, a3, hxr, decide_true, decide_false, Bool.true_and,
        Bool.not_false, Bool.and_true]
  · have : t.getLsbD i = false := BitVec.getLsbD_of_ge _ _ (by omega)
    simp [h24, this]

/-! ### Codes of byte strings -/

def code16 (r : BitVec 16) (l : List (BitVec 8)) : BitVec 16 :=
  (divide 0x8005#16 r.reverse (l.flatMap lowFirst)).reverse

def code24 (r : BitVec 24) (l : List (BitVec 8)) : BitVec 24 :=
  divide 0x864cfb#24 r (l.flatMap highFirst)

def code32 (r : BitVec 32) (l : List (BitVec 8)) : BitVec 32 :=
  (divide 0x04c11db7#32 r.reverse (l.flatMap lowFirst)).reverse

theorem divide_append {w : Nat} (P r : BitVec w) (a b : List Bool) :
    divide P r (a ++ b) = divide P (divide P r a) b := by simp [divide]

theorem fold16 : ∀ (l : List (BitVec 8)) (r : BitVec 16), l.foldl step16 r = code16 r l
  | [], r => by simp [code16, divide, BitVec.reverse_reverse_eq]
  | b :: l, r => by
    rw [List.foldl_cons, fold16 l, step16_eq, code16, code16, BitVec.reverse_reverse_eq,
      List.flatMap_cons, divide_append]

theorem fold32 : ∀ (l : List (BitVec 8)) (r : BitVec 32), l.foldl step32 r = code32 r l
  | [], r => by simp [code32, divide, BitVec.reverse_reverse_eq]
  | b :: l, r => by
    rw [List.foldl_cons, fold32 l, step32_eq, code32, code32, BitVec.reverse_reverse_eq,
      List.flatMap_cons, divide_append]

theorem foldDo1 : ∀ (l : List (BitVec 8)) (r : BitVec 32), l.foldl do1 r = code32 r l
  | [], r => by simp [code32, divide, BitVec.reverse_reverse_eq]
  | b :: l, r => by
    rw [List.foldl_cons, foldDo1 l, do1_eq, code32, code32, BitVec.reverse_reverse_eq,
      List.flatMap_cons, divide_append]

theorem fold24 : ∀ (l : List (BitVec 8)) (r : BitVec 24),
    l.foldl step24 (r.setWidth 32) = (code24 r l).setWidth 32
  | [], r => by simp [code24, divide]
  | b :: l, r => by
    rw [List.foldl_cons, step24_eq, fold24 l, code24, code24, List.flatMap_cons, divide_append]

/-! ### Order of the bytes -/

/-- The bytes of a number, the lowest one first. -/
def bytes (siz t : Nat) : List (BitVec 8) := (List.range siz).map fun j => BitVec.ofNat 8 (t / 256 ^ j)

/-- An array of numbers in the memory of the machine. -/
def memory (siz : Nat) (tokens : List Nat) : List (BitVec 8) := tokens.flatMap (bytes siz)

/-- The same, the highest byte of each number first. -/
def network (siz : Nat) (tokens : List Nat) : List (BitVec 8) :=
  tokens.flatMap fun t => (bytes siz t).reverse

theorem loop_append {w : Nat} (step : BitVec w → BitVec 8 → BitVec w) (data : List (BitVec 8))
    (mask : Nat) : ∀ (l : List (BitVec 8)) (indx m : Nat) (crc : BitVec w),
    (∀ (i : Nat) b, l[i]? = some b → data[(indx + i) ^^^ mask]? = some b) →
    loop step data mask (l.length + m) indx crc
      = loop step data mask m (indx + l.length) (l.foldl step crc)
  | [], indx, m, crc, _ => by simp
  | b :: l, indx, m, crc, h => by
    have h0 := h 0 b rfl
    rw [Nat.add_zero] at h0
    rw [List.length_cons, show l.length + 1 + m = (l.length + m) + 1 by omega, loop, h0,
      Option.bind_eq_bind, Option.bind_some, loop_append step data mask l (indx + 1) m]
    · rw [List.foldl_cons, show indx + 1 + l.length = indx + (l.length + 1) by omega]
    · intro i c hc
      have := h (i + 1) c (by simpa using hc)
      rw [show indx + 1 + i = indx + (i + 1) by omega]
      exact this

theorem xor_mask (k q r : Nat) (hr : r < 2 ^ k) :
    (2 ^ k * q + r) ^^^ (2 ^ k - 1) = 2 ^ k * q + (2 ^ k - 1 - r) := by
  apply Nat.eq_of_testBit_eq
  intro i
  rw [Nat.testBit_xor, Nat.testBit_two_pow_mul_add _ hr, Nat.testBit_two_pow_sub_one,
    Nat.testBit_two_pow_mul_add _ (by omega)]
  by_cases h : i < k
  · simp only [h, if_true, decide_true, Bool.xor_true]
    rw [show 2 ^ k - 1 - r = 2 ^ k - (r + 1) by omega, Nat.testBit_two_pow_sub_succ hr]
    simp [h]
  · simp [h]

theorem loop_tokens {w : Nat} (step : BitVec w → BitVec 8 → BitVec w) (k : Nat)
    (data : List (BitVec 8)) : ∀ (tokens : List Nat) (pre : List Nat) (crc : BitVec w),
    data = memory (2 ^ k) (pre ++ tokens) →
    loop step data (2 ^ k - 1) (2 ^ k * tokens.length) (2 ^ k * pre.length) crc
      = some ((network (2 ^ k) tokens).foldl step crc)
  | [], pre, crc, _ => by simp [network, loop]
  | t :: ts, pre, crc, hd => by
    have hlen : ∀ l : List Nat, (memory (2 ^ k) l).length = 2 ^ k * l.length := by
      intro l
      induction l with
      | nil => simp [memory]
      | cons a l ih =>
        simp only [memory, List.flatMap_cons, List.length_append, List.length_cons] at ih ⊢
        rw [ih]
        simp [bytes, Nat.mul_add, Nat.add_comm]
    have hl : (bytes (2 ^ k) t).length = 2 ^ k := by simp [bytes]
    have h1 := loop_append step data (2 ^ k - 1) (bytes (2 ^ k) t).reverse (2 ^ k * pre.length)
      (2 ^ k * ts.length) crc (by
        intro i b hi
        have hil : i < 2 ^ k := by
          have := (List.getElem?_eq_some_iff.1 hi).1
          simpa [bytes] using this
        rw [xor_mask k _ _ hil, hd, memory, List.flatMap_append]
        have hp : (pre.flatMap (bytes (2 ^ k))).length = 2 ^ k * pre.length := hlen pre
        rw [List.getElem?_append_right (by omega), hp, Nat.add_sub_cancel_left,
          List.flatMap_cons, List.getElem?_append_left (by omega)]
        rw [List.getElem?_reverse (by omega), hl] at hi
        exact hi)
    rw [List.length_reverse, hl] at h1
    rw [List.length_cons, show 2 ^ k * (ts.length + 1) = 2 ^ k + 2 ^ k * ts.length by ring, h1]
    have h2 := loop_tokens step k data ts (pre ++ [t])
      ((bytes (2 ^ k) t).reverse.foldl step crc) (by rw [hd]; simp)
    rw [List.length_append, List.length_singleton,
      show 2 ^ k * (pre.length + 1) = 2 ^ k * pre.length + 2 ^ k by ring] at h2
    rw [h2]
    simp [network]

theorem loop_memory {w : Nat} (step : BitVec w → BitVec 8 → BitVec w) (k : Nat)
    (tokens : List Nat) (crc : BitVec w) :
    loop step (memory (2 ^ k) tokens) (if 2 ^ k > 1 then 2 ^ k - 1 else 0)
      (2 ^ k * tokens.length) 0 crc = some ((network (2 ^ k) tokens).foldl step crc) := by
  have h := loop_tokens step k (memory (2 ^ k) tokens) tokens [] crc rfl
  have hm : (if 2 ^ k > 1 then 2 ^ k - 1 else 0) = 2 ^ k - 1 := by
    split
    · rfl
    · have := Nat.one_le_two_pow (n := k); omega
  rw [hm]
  simpa using h

/-- One call: what is handed back is the code of the bytes, the highest byte of each number
first, continued from the earlier value. -/
theorem call16 (old : BitVec 32) (k : Nat) (tokens : List Nat) (mode : Nat) :
    updateCrc old 16 (memory (2 ^ k) tokens) (2 ^ k) tokens.length mode
      = some ((code16 (if mode = 0 then 0 else old.setWidth 16) (network (2 ^ k) tokens)).setWidth 32) := by
  have h0 : (old &&& 0xFFFF).setWidth 16 = old.setWidth 16 := by
    apply BitVec.eq_of_getLsbD_eq
    intro i hi
    have : (0xffff#32).getLsbD i = true := by
      have : ∀ j : Fin 16, (0xffff#32).getLsbD j = true := by decide
      exact this ⟨i, hi⟩
    rw [show (0xFFFF : BitVec 32) = 0xffff#32 from rfl]
    simp only [BitVec.getLsbD_setWidth, BitVec.getLsbD_and, this, Bool.and_true]
  have h1 : ∀ x : BitVec 16, x &&& 0xffff = x := fun x => BitVec.and_allOnes
  simp only [updateCrc, if_true, loop_memory, h0, h1, Option.bind_eq_bind, Option.bind_some, fold16]
  congr 2
  split
  · exact BitVec.xor_zero
  · rfl

theorem call24 (old : BitVec 32) (k : Nat) (tokens : List Nat) (mode : Nat) :
    updateCrc old 24 (memory (2 ^ k) tokens) (2 ^ k) tokens.length mode
      = some ((code24 (if mode = 0 then 0xb704ce else old.setWidth 24)
          (network (2 ^ k) tokens)).setWidth 32) := by
  have h0 : (if mode = 0 then 0xb704ce else old &&& 0xFFFFFF)
      = (if mode = 0 then (0xb704ce : BitVec 24) else old.setWidth 24).setWidth 32 := by
    split
    · decide
    · apply BitVec.eq_of_getLsbD_eq
      intro i hi
      rw [show (0xFFFFFF : BitVec 32) = 0xffffff#32 from rfl]
      simp only [BitVec.getLsbD_and, BitVec.getLsbD_setWidth, mask24 i hi, hi, decide_true,
        Bool.true_and]
      exact Bool.and_comm _ _
  have h1 : ∀ x : BitVec 24, x.setWidth 32 &&& 0xffffff = x.setWidth 32 := by
    intro x
    apply BitVec.eq_of_getLsbD_eq
    intro i hi
    rw [show (0xffffff : BitVec 32) = 0xffffff#32 from rfl]
    simp only [BitVec.getLsbD_and, BitVec.getLsbD_setWidth, mask24 i hi, hi, decide_true,
      Bool.true_and]
    by_cases h : i < 24
    · simp [h]
    · simp [BitVec.getLsbD_of_ge x i (by omega)]
  simp only [updateCrc, if_true, show ¬ (24 = 16) by omega, if_false, loop_memory, h0, fold24, h1,
    Option.bind_eq_bind, Option.bind_some]
  congr 1
  split
  · exact BitVec.xor_zero
  · rfl

theorem call32 (old : BitVec 32) (k : Nat) (tokens : List Nat) (mode : Nat) :
    updateCrc old 32 (memory (2 ^ k) tokens) (2 ^ k) tokens.length mode
      = some (code32 (if mode = 0 then 0xffffffff else old) (network (2 ^ k) tokens)
          ^^^ if mode = 2 then 0xffffffff else 0#32) := by
  have h1 : ∀ x : BitVec 32, x &&& 0xffffffff = x := fun x => BitVec.and_allOnes
  simp only [updateCrc, if_true, show ¬ (32 = 16) by omega, show ¬ (32 = 24) by omega, if_false,
    loop_memory, h1, fold32, Option.bind_eq_bind, Option.bind_some]
  congr 1
  split
  · rfl
  · exact BitVec.xor_zero.symm

/-! ### The property -/

/-- Numbers of `2 ^ k` bytes. -/
structure Part where
  k : Nat
  tokens : List Nat

def update (len : Nat) (mode : Nat) (old : BitVec 32) (p : Part) : Option (BitVec 32) :=
  updateCrc old len (memory (2 ^ p.k) p.tokens) (2 ^ p.k) p.tokens.length mode

/-- A first call, any number of others and a last one. -/
def session (len : Nat) (junk : BitVec 32) (first : Part) (mid : List Part) (last : Part) :
    Option (BitVec 32) := do
  let c ← update len 0 junk first
  let c ← mid.foldlM (update len 1) c
  update len 2 c last

/-- All bytes of a message, the highest byte of each number first. -/
def stream (ps : List Part) : List (BitVec 8) := ps.flatMap fun p => network (2 ^ p.k) p.tokens

theorem code16_append (r : BitVec 16) (a b : List (BitVec 8)) :
    code16 (code16 r a) b = code16 r (a ++ b) := by
  simp only [code16, BitVec.reverse_reverse_eq, List.flatMap_append, divide_append]

theorem code24_append (r : BitVec 24) (a b : List (BitVec 8)) :
    code24 (code24 r a) b = code24 r (a ++ b) := by
  simp only [code24, List.flatMap_append, divide_append]

theorem code32_append (r : BitVec 32) (a b : List (BitVec 8)) :
    code32 (code32 r a) b = code32 r (a ++ b) := by
  simp only [code32, BitVec.reverse_reverse_eq, List.flatMap_append, divide_append]

theorem mid16 : ∀ (ps : List Part) (r : BitVec 16),
    ps.foldlM (update 16 1) (r.setWidth 32) = some ((code16 r (stream ps)).setWidth 32)
  | [], r => by simp [stream, code16, divide, BitVec.reverse_reverse_eq]
  | p :: ps, r => by
    have h := call16 (r.setWidth 32) p.k p.tokens 1
    simp only [Nat.one_ne_zero, if_false] at h
    rw [List.foldlM_cons, update, h, Option.bind_eq_bind, Option.bind_some, mid16 ps, code16_append]
    simp [stream]

theorem mid24 : ∀ (ps : List Part) (r : BitVec 24),
    ps.foldlM (update 24 1) (r.setWidth 32) = some ((code24 r (stream ps)).setWidth 32)
  | [], r => by simp [stream, code24, divide]
  | p :: ps, r => by
    have h := call24 (r.setWidth 32) p.k p.tokens 1
    simp only [Nat.one_ne_zero, if_false] at h
    rw [List.foldlM_cons, update, h, Option.bind_eq_bind, Option.bind_some, mid24 ps, code24_append]
    simp [stream]

theorem mid32 : ∀ (ps : List Part) (r : BitVec 32),
    ps.foldlM (update 32 1) r = some (code32 r (stream ps))
  | [], r => by simp [stream, code32, divide, BitVec.reverse_reverse_eq]
  | p :: ps, r => by
    have h := call32 r p.k p.tokens 1
    simp only [Nat.one_ne_zero, if_false, show ¬ (1 = 2) by omega, BitVec.xor_zero] at h
    rw [List.foldlM_cons, update, h, Option.bind_eq_bind, Option.bind_some, mid32 ps, code32_append]
    simp [stream]

/-- **C73** The code of 16 bits, for any message in any number of calls and any sizes of its
numbers: read from the lowest bit to the highest it is the remainder of the division of the
message, followed by 16 zeros, by x^16 + x^15 + x^2 + 1. -/
theorem C73_code16 (junk : BitVec 32) (first : Part) (mid : List Part) (last : Part) :
    ∃ v : BitVec 16, session 16 junk first mid last = some (v.setWidth 32) ∧
      poly v.reverse = (msg ((stream (first :: mid ++ [last])).flatMap lowFirst) * X ^ 16)
        %ₘ (X ^ 16 + X ^ 15 + X ^ 2 + 1) := by
  have h : session 16 junk first mid last
      = some ((code16 0 (stream (first :: mid ++ [last]))).setWidth 32) := by
    have h1 := call16 junk first.k first.tokens 0
    simp only [if_true] at h1
    have h1 : update 16 0 junk first = _ := h1
    rw [session, h1, Option.bind_eq_bind, Option.bind_some, mid16, Option.bind_some,
      update, call16]
    simp only [show ¬ (2 = 0) by omega, if_false]
    rw [BitVec.setWidth_setWidth_of_le _ (by omega), BitVec.setWidth_eq, code16_append,
      code16_append]
    simp [stream]
  refine ⟨_, h, ?_⟩
  rw [code16, BitVec.reverse_reverse_eq, divide_remainder (by omega)]
  have h0 : (BitVec.reverse (0 : BitVec 16)) = 0#16 := by decide
  have hd : divisor 0x8005#16 = X ^ 16 + X ^ 15 + X ^ 2 + 1 := by
    simp only [divisor, poly, Finset.sum_range_succ, Finset.sum_range_zero]
    simp
    ring
  rw [h0, poly_zero, zero_mul, zero_add, hd]

/-- **C73** The code of 24 bits: the message, begun with 0xb704ce, highest bits first. -/
theorem C73_code24 (junk : BitVec 32) (first : Part) (mid : List Part) (last : Part) :
    ∃ v : BitVec 24, session 24 junk first mid last = some (v.setWidth 32) ∧
      poly v = (poly 0xb704ce#24 * X ^ ((stream (first :: mid ++ [last])).flatMap highFirst).length
          + msg ((stream (first :: mid ++ [last])).flatMap highFirst) * X ^ 24)
        %ₘ (X ^ 24 + X ^ 23 + X ^ 18 + X ^ 17 + X ^ 14 + X ^ 11 + X ^ 10 + X ^ 7 + X ^ 6 + X ^ 5
          + X ^ 4 + X ^ 3 + X + 1) := by
  have h : session 24 junk first mid last
      = some ((code24 0xb704ce (stream (first :: mid ++ [last]))).setWidth 32) := by
    have h1 := call24 junk first.k first.tokens 0
    simp only [if_true] at h1
    have h1 : update 24 0 junk first = _ := h1
    rw [session, h1, Option.bind_eq_bind, Option.bind_some, mid24, Option.bind_some,
      update, call24]
    simp only [show ¬ (2 = 0) by omega, if_false]
    rw [BitVec.setWidth_setWidth_of_le _ (by omega), BitVec.setWidth_eq, code24_append,
      code24_append]
    simp [stream]
  refine ⟨_, h, ?_⟩
  rw [code24, divide_remainder (by omega)]
  have hd : divisor 0x864cfb#24 = X ^ 24 + X ^ 23 + X ^ 18 + X ^ 17 + X ^ 14 + X ^ 11 + X ^ 10
      + X ^ 7 + X ^ 6 + X ^ 5 + X ^ 4 + X ^ 3 + X + 1 := by
    simp only [divisor, poly, Finset.sum_range_succ, Finset.sum_range_zero]
    simp
    ring
  rw [hd]
  rfl

theorem session32 (junk : BitVec 32) (first : Part) (mid : List Part) (last : Part) :
    session 32 junk first mid last
      = some (code32 0xffffffff (stream (first :: mid ++ [last])) ^^^ 0xffffffff) := by
  have h1 := call32 junk first.k first.tokens 0
  simp only [if_true, show ¬ (0 = 2) by omega, if_false, BitVec.xor_zero] at h1
  have h1 : update 32 0 junk first = _ := h1
  rw [session, h1, Option.bind_eq_bind, Option.bind_some, mid32, Option.bind_some,
    update, call32]
  simp only [show ¬ (2 = 0) by omega, if_false, if_true]
  rw [code32_append, code32_append]
  simp [stream]

theorem code32_poly (l : List (BitVec 8)) :
    poly (code32 0xffffffff l).reverse =
      (poly 0xffffffff#32 * X ^ (l.flatMap lowFirst).length + msg (l.flatMap lowFirst) * X ^ 32)
        %ₘ (X ^ 32 + X ^ 26 + X ^ 23 + X ^ 22 + X ^ 16 + X ^ 12 + X ^ 11 + X ^ 10 + X ^ 8 + X ^ 7
          + X ^ 5 + X ^ 4 + X ^ 2 + X + 1) := by
  rw [code32, BitVec.reverse_reverse_eq, divide_remainder (by omega)]
  have h0 : (BitVec.reverse (0xffffffff : BitVec 32)) = 0xffffffff#32 := by decide +kernel
  have hd : divisor 0x04c11db7#32 = X ^ 32 + X ^ 26 + X ^ 23 + X ^ 22 + X ^ 16 + X ^ 12 + X ^ 11
      + X ^ 10 + X ^ 8 + X ^ 7 + X ^ 5 + X ^ 4 + X ^ 2 + X + 1 := by
    simp only [divisor, poly, Finset.sum_range_succ, Finset.sum_range_zero]
    simp
    ring
  rw [h0, hd]

/-- **C73** The code of 32 bits: begun with ones, inverted at the end, lowest bits first. -/
theorem C73_code32 (junk : BitVec 32) (first : Part) (mid : List Part) (last : Part) :
    ∃ v : BitVec 32, session 32 junk first mid last = some (~~~v) ∧
      poly v.reverse = (poly 0xffffffff#32
            * X ^ ((stream (first :: mid ++ [last])).flatMap lowFirst).length
          + msg ((stream (first :: mid ++ [last])).flatMap lowFirst) * X ^ 32)
        %ₘ (X ^ 32 + X ^ 26 + X ^ 23 + X ^ 22 + X ^ 16 + X ^ 12 + X ^ 11 + X ^ 10 + X ^ 8 + X ^ 7
          + X ^ 5 + X ^ 4 + X ^ 2 + X + 1) := by
  refine ⟨code32 0xffffffff (stream (first :: mid ++ [last])), ?_, code32_poly _⟩
  rw [session32]
  congr 1
  exact BitVec.xor_allOnes

theorem zloop_eq : ∀ (n : Nat) (buf : List (BitVec 8)) (len : Nat) (crc : BitVec 32),
    buf.length ≤ n → len ≤ buf.length → zloop buf len crc = some ((buf.take len).foldl do1 crc) := by
  intro n
  induction n using Nat.strongRecOn with
  | ind n ih =>
    intro buf len crc hn hl
    rw [zloop.eq_def]
    split
    · rename_i a b c d e f g h buf' 
      simp only [List.length_cons] at hn hl
      by_cases h8 : len ≥ 8
      · rw [if_pos h8, ih (n - 8) (by omega) buf' (len - 8) _ (by omega) (by omega)]
        obtain ⟨m, rfl⟩ : ∃ m, len = m + 8 := ⟨len - 8, by omega⟩
        simp
      · rw [if_neg h8]
        have ht : (a :: b :: c :: d :: e :: f :: g :: h :: buf').take len
            = ([a, b, c, d, e, f, g, h] : List (BitVec 8)).take len := by
          rw [show a :: b :: c :: d :: e :: f :: g :: h :: buf'
            = [a, b, c, d, e, f, g, h] ++ buf' from rfl, List.take_append_of_le_length (by
              simp; omega)]
        rw [ht]
    · rw [if_pos hl]

/-- **C73** `f_crc32`, started from zero and continued with any other part of a message, gives
the same code of 32 bits. -/
theorem C73_crc32 (a : List (BitVec 8)) (ps : List (List (BitVec 8))) :
    ∃ v : BitVec 32,
      ((zcrc32 0 a a.length).bind fun c => ps.foldlM (fun c p => zcrc32 c p p.length) c)
        = some (~~~v) ∧
      poly v.reverse = (poly 0xffffffff#32 * X ^ ((a ++ ps.flatten).flatMap lowFirst).length
          + msg ((a ++ ps.flatten).flatMap lowFirst) * X ^ 32)
        %ₘ (X ^ 32 + X ^ 26 + X ^ 23 + X ^ 22 + X ^ 16 + X ^ 12 + X ^ 11 + X ^ 10 + X ^ 8 + X ^ 7
          + X ^ 5 + X ^ 4 + X ^ 2 + X + 1) := by
  have hx : ∀ x : BitVec 32, x ^^^ 0xffffffff = ~~~x := fun x => BitVec.xor_allOnes
  have h1 : ∀ (r : BitVec 32) (l : List (BitVec 8)),
      zcrc32 (~~~r) l l.length = some (~~~(code32 r l)) := by
    intro r l
    rw [zcrc32, zloop_eq _ l l.length _ (Nat.le_refl _) (Nat.le_refl _), List.take_length, foldDo1]
    simp only [hx, BitVec.not_not, Option.bind_eq_bind, Option.bind_some]
  have h2 : ∀ (ps : List (List (BitVec 8))) (r : BitVec 32),
      ps.foldlM (fun c p => zcrc32 c p p.length) (~~~r) = some (~~~(code32 r ps.flatten)) := by
    intro ps
    induction ps with
    | nil => intro r; simp [code32, divide, BitVec.reverse_reverse_eq]
    | cons p ps ih =>
      intro r
      rw [List.foldlM_cons, h1, Option.bind_eq_bind, Option.bind_some, ih, code32_append,
        List.flatten_cons]
  refine ⟨code32 0xffffffff (a ++ ps.flatten), ?_, code32_poly _⟩
  have h0 : (0 : BitVec 32) = ~~~(0xffffffff : BitVec 32) := by decide
  rw [h0, h1, Option.bind_some, h2, code32_append]

/-- **C73** Two messages which differ in a window of at most 16, 24 or 32 bits have different
codes. -/
theorem C73_burst (len : Nat) (hlen : len = 16 ∨ len = 24 ∨ len = 32) (junk junk' : BitVec 32)
    (first first' : Part) (mid mid' : List Part) (last last' : Part) (p a b q : List Bool)
    (hx : (stream (first :: mid ++ [last])).flatMap (if len = 24 then highFirst else lowFirst)
      = p ++ a ++ q)
    (hy : (stream (first' :: mid' ++ [last'])).flatMap (if len = 24 then highFirst else lowFirst)
      = p ++ b ++ q)
    (hab : a.length = b.length) (hw : a.length ≤ len) (hne : a ≠ b) :
    session len junk first mid last ≠ session len junk' first' mid' last' := by
  intro heq
  apply hne
  rcases hlen with rfl | rfl | rfl
  · obtain ⟨v, hv, pv⟩ := C73_code16 junk first mid last
    obtain ⟨u, hu, pu⟩ := C73_code16 junk' first' mid' last'
    rw [hv, hu] at heq
    have : v = u := by
      have := congrArg (BitVec.setWidth 16) (Option.some.inj heq)
      simpa using this
    have hd : divisor 0x8005#16 = X ^ 16 + X ^ 15 + X ^ 2 + 1 := by
      simp only [divisor, poly, Finset.sum_range_succ, Finset.sum_range_zero]
      simp
      ring
    subst this
    simp only [show ¬ (16 = 24) by omega, if_false] at hx hy
    rw [hx, ← hd] at pv
    rw [hy, ← hd] at pu
    refine divide_burst (by omega) 0x8005#16 0 (by decide) p a b q hab hw (poly_inj ?_)
    rw [divide_remainder (by omega), divide_remainder (by omega), show (0 : BitVec 16) = 0#16 from rfl,
      poly_zero, zero_mul, zero_add, zero_mul, zero_add, ← pv, ← pu]
  · obtain ⟨v, hv, pv⟩ := C73_code24 junk first mid last
    obtain ⟨u, hu, pu⟩ := C73_code24 junk' first' mid' last'
    rw [hv, hu] at heq
    have : v = u := by
      have := congrArg (BitVec.setWidth 24) (Option.some.inj heq)
      simpa using this
    have hd : divisor 0x864cfb#24 = X ^ 24 + X ^ 23 + X ^ 18 + X ^ 17 + X ^ 14 + X ^ 11 + X ^ 10
        + X ^ 7 + X ^ 6 + X ^ 5 + X ^ 4 + X ^ 3 + X + 1 := by
      simp only [divisor, poly, Finset.sum_range_succ, Finset.sum_range_zero]
      simp
      ring
    subst this
    simp only [if_true] at hx hy
    rw [hx, ← hd] at pv
    rw [hy, ← hd] at pu
    refine divide_burst (by omega) 0x864cfb#24 0xb704ce#24 (by decide) p a b q hab hw (poly_inj ?_)
    rw [divide_remainder (by omega), divide_remainder (by omega), ← pv, ← pu]
  · obtain ⟨v, hv, pv⟩ := C73_code32 junk first mid last
    obtain ⟨u, hu, pu⟩ := C73_code32 junk' first' mid' last'
    rw [hv, hu] at heq
    have : v = u := by
      have := congrArg (fun x : BitVec 32 => ~~~x) (Option.some.inj heq)
      simpa using this
    have hd : divisor 0x04c11db7#32 = X ^ 32 + X ^ 26 + X ^ 23 + X ^ 22 + X ^ 16 + X ^ 12 + X ^ 11
        + X ^ 10 + X ^ 8 + X ^ 7 + X ^ 5 + X ^ 4 + X ^ 2 + X + 1 := by
      simp only [divisor, poly, Finset.sum_range_succ, Finset.sum_range_zero]
      simp
      ring
    subst this
    simp only [show ¬ (32 = 24) by omega, if_false] at hx hy
    rw [hx, ← hd] at pv
    rw [hy, ← hd] at pu
    refine divide_burst (by omega) 0x04c11db7#32 0xffffffff#32 (by decide) p a b q hab hw
      (poly_inj ?_)
    rw [divide_remainder (by omega), divide_remainder (by omega), ← pv, ← pu]

/-- An example, of the self test (crc_16_24_32.c:79-98): 32 numbers of four bytes, then 64 of
eight. -/
example : (session 32 0 ⟨2, (List.range 32).map (2 ^ ·)⟩ [] ⟨3, (List.range 64).map (2 ^ ·)⟩
    = some 0x5560ac91) ∧
    (session 16 0 ⟨2, (List.range 32).map (2 ^ ·)⟩ [] ⟨3, (List.range 64).map (2 ^ ·)⟩
    = some 0x0fc6) ∧
    (session 24 0 ⟨2, (List.range 32).map (2 ^ ·)⟩ [] ⟨3, (List.range 64).map (2 ^ ·)⟩
    = some 0x61f67c) := by decide +kernel

/-- An example: the check value of the code of 32 bits, of the text `123456789`. -/
example : zcrc32 0 ([0x31, 0x32, 0x33, 0x34, 0x35, 0x36, 0x37, 0x38, 0x39]) 9
    = some 0xcbf43926 := by decide +kernel

end Verif.Crc3
