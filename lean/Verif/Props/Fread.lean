import Verif.Fread
import Mathlib.Tactic

namespace Verif.Fread

/-! # Files of big-endian numbers: round trip -/

variable {α : Type}

theorem swapN_length (k n : Nat) (l : List α) : (swapN k n l).length = l.length := by
  induction n generalizing l with
  | zero => rfl
  | succ n ih => simp [swapN, ih]; omega

/-- Both passes for numbers of 8 bytes at once; a word which is left over is exchanged alone. -/
def w64 : Nat → List α → List α
  | 0, l => l
  | 1, l => (l.take 4).reverse ++ l.drop 4
  | n + 2, l => (l.take 8).reverse ++ w64 n (l.drop 8)

theorem exch_swapN (m : Nat) (l : List α) (h : 4 * m ≤ l.length) : exch (m / 2) (swapN 4 m l) = w64 m l := by
  induction m using Nat.strongRecOn generalizing l with
  | ind m ih =>
    match m with
    | 0 => rfl
    | 1 => simp [exch, swapN, w64]
    | n + 2 =>
      have e : (n + 2) / 2 = n / 2 + 1 := by omega
      have h1 : (l.take 4).reverse.length = 4 := by simp; omega
      have h2 : ((l.drop 4).take 4).reverse.length = 4 := by simp; omega
      have h3 : (l.take 8).reverse = ((l.drop 4).take 4).reverse ++ (l.take 4).reverse := by
        rw [← List.reverse_append]
        congr 1
        rw [show (8 : Nat) = 4 + 4 from rfl, List.take_add]
      rw [e, exch, swapN, swapN, w64, List.drop_drop]
      rw [List.drop_left' h1, List.take_left' h2, List.take_left' h1, h3]
      rw [show (8 : Nat) = 4 + 4 from rfl, ← List.drop_drop, List.drop_left' h1, List.drop_left' h2]
      rw [ih n (by omega) _ (by simp; omega)]

theorem swapN_at (k n : Nat) (l : List α) (hk : 0 < k) (h : k * n ≤ l.length) (q : Nat) (hq : q < k * n) :
    (swapN k n l)[q]? = l[k * (q / k) + (k - 1 - q % k)]? := by
  induction n generalizing l q with
  | zero => simp at hq
  | succ n ih =>
    have hm : k * (n + 1) = k * n + k := by ring
    have hl : (l.take k).reverse.length = k := by simp; omega
    rw [swapN]
    by_cases hqk : q < k
    · rw [List.getElem?_append_left (by omega), Nat.div_eq_of_lt hqk, Nat.mod_eq_of_lt hqk,
        List.getElem?_reverse (by simp; omega), List.getElem?_take]
      simp only [List.length_take, Nat.mul_zero, Nat.zero_add]
      rw [if_pos (by omega), show min k l.length = k by omega]
    · rw [List.getElem?_append_right (by omega), hl, ih (l.drop k) (by simp; omega) (q - k) (by omega), List.getElem?_drop]
      have e1 : q / k = (q - k) / k + 1 := by
        rw [← Nat.add_div_right _ hk]; congr 1; omega
      have e2 : q % k = (q - k) % k := by
        rw [← Nat.add_mod_right (q - k) k]; congr 1; omega
      rw [e1, e2, Nat.mul_add]
      congr 1
      omega

theorem swapN_twice (k n : Nat) (l : List α) (h : k * n ≤ l.length) : swapN k n (swapN k n l) = l := by
  induction n generalizing l with
  | zero => rfl
  | succ n ih =>
    have hm : k * (n + 1) = k * n + k := by ring
    have hl : (l.take k).reverse.length = k := by simp; omega
    rw [swapN, swapN, List.take_left' hl, List.drop_left' hl, ih _ (by simp; omega), List.reverse_reverse, List.take_append_drop]

theorem w64_length (m : Nat) (l : List α) : (w64 m l).length = l.length := by
  induction m using Nat.strongRecOn generalizing l with
  | ind m ih =>
    match m with
    | 0 => rfl
    | 1 => simp [w64]; omega
    | n + 2 => simp [w64, ih n (by omega)]; omega

theorem w64_twice (m : Nat) (l : List α) (h : 4 * m ≤ l.length) : w64 m (w64 m l) = l := by
  induction m using Nat.strongRecOn generalizing l with
  | ind m ih =>
    match m with
    | 0 => rfl
    | 1 =>
      have hl : (l.take 4).reverse.length = 4 := by simp; omega
      rw [w64, w64, List.take_left' hl, List.drop_left' hl, List.reverse_reverse, List.take_append_drop]
    | n + 2 =>
      have hl : (l.take 8).reverse.length = 8 := by simp; omega
      rw [w64, w64, List.take_left' hl, List.drop_left' hl, ih n (by omega) _ (by simp; omega), List.reverse_reverse,
        List.take_append_drop]

theorem w64_even (n : Nat) (l : List α) : w64 (2 * n) l = swapN 8 n l := by
  induction n generalizing l with
  | zero => rfl
  | succ n ih => rw [show 2 * (n + 1) = 2 * n + 2 by ring, w64, ih, swapN]

/-- The bytes of one number. -/
def bytes : Width → Nat
  | .w16 => 2
  | .w32 => 4
  | .w64 => 8

theorem cnt_eq (size nitems d : Nat) (hd : 2 ≤ d) (h : size * nitems < 2 ^ 32) : cnt size nitems d = size * nitems / d := by
  have : size * nitems / d < 2 ^ 31 := by
    rw [Nat.div_lt_iff_lt_mul (by omega)]
    calc size * nitems < 2 ^ 31 * 2 := by omega
      _ ≤ 2 ^ 31 * d := Nat.mul_le_mul_left _ hd
  have e : size * nitems % 2 ^ 64 = size * nitems := Nat.mod_eq_of_lt (by omega)
  simp only [cnt, e]
  rw [Nat.mod_eq_of_lt (by omega), if_pos this]

theorem swap_eq (w : Width) (size nitems : Nat) (l : List α) (hc : size * nitems < 2 ^ 32) (hb : size * nitems ≤ l.length) :
    swap w size nitems l = match w with
      | .w16 => swapN 2 (size * nitems / 2) l
      | .w32 => swapN 4 (size * nitems / 4) l
      | .w64 => w64 (size * nitems / 4) l := by
  cases w
  · simp only [swap, cnt_eq _ _ 2 (by omega) hc]
  · simp only [swap, cnt_eq _ _ 4 (by omega) hc]
  · simp only [swap, cnt_eq _ _ 4 (by omega) hc]
    exact exch_swapN _ _ (by omega)

theorem swap_twice (w : Width) (size nitems : Nat) (l : List α) (hc : size * nitems < 2 ^ 32) (hb : size * nitems ≤ l.length) :
    (swap w size nitems l).length = l.length ∧ swap w size nitems (swap w size nitems l) = l := by
  have hl : (swap w size nitems l).length = l.length := by
    rw [swap_eq w _ _ _ hc hb]
    cases w
    · exact swapN_length _ _ _
    · exact swapN_length _ _ _
    · exact w64_length _ _
  refine ⟨hl, ?_⟩
  rw [swap_eq w _ _ _ hc (by omega), swap_eq w _ _ _ hc hb]
  cases w
  · exact swapN_twice _ _ _ (by omega)
  · exact swapN_twice _ _ _ (by omega)
  · exact w64_twice _ _ (by omega)

theorem swap_at (w : Width) (size nitems : Nat) (l : List α) (hc : size * nitems < 2 ^ 32) (hb : size * nitems ≤ l.length)
    (hw : bytes w ∣ size * nitems) (q : Nat) (hq : q < size * nitems) :
    (swap w size nitems l)[q]? = l[bytes w * (q / bytes w) + (bytes w - 1 - q % bytes w)]? := by
  rw [swap_eq w _ _ _ hc hb]
  obtain ⟨n, hn⟩ := hw
  rw [hn] at hq hb ⊢
  cases w <;> simp only [bytes] at hq hb ⊢
  · rw [Nat.mul_div_cancel_left _ (by omega)]; exact swapN_at 2 n l (by omega) hb q hq
  · rw [Nat.mul_div_cancel_left _ (by omega)]; exact swapN_at 4 n l (by omega) hb q hq
  · rw [show 8 * n / 4 = 2 * n by omega, w64_even]; exact swapN_at 8 n l (by omega) hb q hq

/-- A write puts each number with its high byte first at the end of the file and leaves the buffer as it was. -/
theorem C152_write (w : Width) (buf : List α) (size nitems : Nat) (file : List α) (hs : bytes w ∣ size)
    (hc : size * nitems < 2 ^ 32) (hb : size * nitems ≤ buf.length) :
    ∃ out, fwrite w buf size nitems file = (buf, some nitems, file ++ out) ∧ out.length = size * nitems ∧
      ∀ q, q < size * nitems → out[q]? = buf[bytes w * (q / bytes w) + (bytes w - 1 - q % bytes w)]? := by
  have hbad : badSize w size = false := by
    cases w <;> simp only [bytes] at hs <;> simp only [badSize, bne_eq_false_iff_eq] <;> omega
  obtain ⟨h1, h2⟩ := swap_twice w size nitems buf hc hb
  refine ⟨(swap w size nitems buf).take (size * nitems), ?_, by simp; omega, fun q hq => ?_⟩
  · simp only [fwrite, hbad, Bool.false_eq_true, if_false, h2]
  · rw [List.getElem?_take, if_pos hq, swap_at w size nitems buf hc hb (Dvd.dvd.mul_right hs _) q hq]

/-- A size the test lets through: the write leaves the buffer as it was, and a read gives the same bytes back, whatever was in the
buffer before. -/
theorem C152_round_trip (w : Width) (buf old : List α) (size nitems : Nat) (rest : List α) (hs : badSize w size = false) (h0 : 0 < size)
    (hc : size * nitems < 2 ^ 32) (hb : size * nitems = buf.length) (ho : old.length = buf.length) :
    (fwrite w buf size nitems []).1 = buf ∧
    fread w old size nitems ((fwrite w buf size nitems []).2.2 ++ rest) = (buf, some nitems, rest) := by
  obtain ⟨h1, h2⟩ := swap_twice w size nitems buf hc (le_of_eq hb)
  have hl : (swap w size nitems buf).length = size * nitems := by omega
  refine ⟨by simp only [fwrite, hs, Bool.false_eq_true, if_false, h2], ?_⟩
  simp only [fread, fwrite, hs, Bool.false_eq_true, if_false, List.nil_append]
  rw [List.take_of_length_le (by omega : (swap w size nitems buf).length ≤ size * nitems), List.take_left' hl, List.drop_left' hl, hl,
    List.drop_of_length_le (by omega : old.length ≤ size * nitems), List.append_nil, h2,
    Nat.mul_comm, Nat.mul_div_cancel _ h0]

example : fwrite .w64 [1, 2, 3, 4, 5, 6, 7, 8, 9, 10, 11, 12] 4 3 [0] =
    ([1, 2, 3, 4, 5, 6, 7, 8, 9, 10, 11, 12], some 3, [0, 8, 7, 6, 5, 4, 3, 2, 1, 12, 11, 10, 9]) := by decide +kernel
example : fread .w16 [0, 0, 0, 0] 2 2 [1, 2, 3, 4, 5] = ([2, 1, 4, 3], some 2, [5]) := by decide +kernel

/-- A size which is no multiple of the number is refused: nothing is read or written. -/
theorem C152_refused (w : Width) (buf : List α) (size nitems : Nat) (file : List α) (h : ¬ min (bytes w) 4 ∣ size) :
    fread w buf size nitems file = (buf, none, file) ∧ fwrite w buf size nitems file = (buf, none, file) := by
  have hbad : badSize w size = true := by
    cases w <;> simp [bytes] at h <;> simp only [badSize, bne_iff_ne, ne_eq] <;> omega
  simp [fread, fwrite, hbad]

/-- Where the file has less than asked for, the bytes of the buffer which were not read are exchanged all the same. -/
theorem C152_short_witness : fread .w32 [1, 2, 3, 4, 5, 6, 7, 8] 4 2 [9, 10, 11, 12] = ([12, 11, 10, 9, 8, 7, 6, 5], some 1, []) := by
  decide +kernel

/-- Two thousand million words or more: the number of words is negative, nothing is exchanged and the numbers are written with the
low byte first. -/
theorem C152_large_witness (buf : List α) (n : Nat) (h1 : 2 ^ 31 ≤ n) (h2 : n < 2 ^ 32) :
    fwrite .w32 buf 4 n [] = (buf, some n, buf.take (4 * n)) := by
  have : cnt 4 n 4 = 0 := by
    have e : 4 * n % 2 ^ 64 / 4 % 2 ^ 32 = n := by omega
    simp only [cnt, e]
    rw [if_neg (by omega)]
  simp [fwrite, badSize, swap, this, swapN]

end Verif.Fread
