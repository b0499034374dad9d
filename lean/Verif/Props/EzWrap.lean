/-
C77: interpolation across the seam of a global grid.

A grid that goes round the earth either stops one column before its first meridian (extension 2)
or repeats that meridian as its last column (extension 1).  The kernels that wrap are compared with
the kernels that do not, run on an array widened with copies of columns: the value must be the
same for every position.  It is, except for the bicubic kernel with extension 1 in one cell: there
the fourth column is replaced by a wrong one.
-/
import Verif.Props.EzInterp

namespace Verif.EzInterp

theorem emod_zero {a n : ℤ} (h0 : 0 ≤ a) (h1 : a < n) : a % n = a := Int.emod_eq_of_lt h0 h1

theorem emod_one {a n : ℤ} (h0 : n ≤ a) (h1 : a < 2 * n) : a % n = a - n := by
  have : (a - n) % n = a - n := Int.emod_eq_of_lt (by omega) (by omega)
  rw [← this, Int.sub_emod_right]

theorem emod_two {a n : ℤ} (h0 : 2 * n ≤ a) (h1 : a < 3 * n) : a % n = a - 2 * n := by
  have : (a - 2 * n) % n = a - 2 * n := Int.emod_eq_of_lt (by omega) (by omega)
  rw [← this, show a - 2 * n = a - n - n by ring, Int.sub_emod_right, Int.sub_emod_right]

theorem emod_neg {a n : ℤ} (h0 : -n ≤ a) (h1 : a < 0) : a % n = a + n := by
  have : (a + n) % n = a + n := Int.emod_eq_of_lt (by omega) (by omega)
  rw [← this, Int.add_emod_right]

/-- The column of an array of period `n` that lies at the place `k`: `k`, or `k` one turn away. -/
def turn (n k : ℤ) : ℤ := (k - 1) % n + 1

theorem turn_mid {n k : ℤ} (h0 : 1 ≤ k) (h1 : k ≤ n) : turn n k = k := by
  unfold turn; rw [emod_zero (by omega) (by omega)]; omega

theorem turn_high {n k : ℤ} (h0 : n < k) (h1 : k ≤ 2 * n) : turn n k = k - n := by
  unfold turn; rw [emod_one (by omega) (by omega)]; omega

theorem turn_low {n k : ℤ} (h0 : -n < k) (h1 : k ≤ 0) : turn n k = k + n := by
  unfold turn; rw [emod_neg (by omega) (by omega)]; omega

/-- The integer part of the next position, as far as the clamps see it. -/
theorem ifix_succ (px : ℚ) : max 2 (ifix (px + 1)) = max 1 (ifix px) + 1 := by
  unfold ifix
  by_cases h : 0 ≤ px
  · rw [if_pos h, if_pos (by linarith), Int.floor_add_one]; omega
  · push Not at h
    rw [if_neg (show ¬ 0 ≤ px by linarith)]
    have h1 : ⌈px⌉ ≤ 0 := by rw [Int.ceil_le]; simpa using h.le
    split
    · have : ⌊px + 1⌋ < 1 := by rw [Int.floor_lt]; push_cast; linarith
      omega
    · have : ⌈px + 1⌉ ≤ 1 := by rw [Int.ceil_le]; push_cast; linarith
      omega

/-- **C77, bilinear.**  With extension 2 the kernel that wraps gives, at every position, the value
of the plain kernel on the array with a copy of the first column added at the end; with extension
1 it gives that of the plain kernel on the array itself. -/
theorem C77_bilinear (ni j1 j2 : ℤ) (z : ℤ → ℤ → ℚ) (px py : ℚ) (hni : 2 ≤ ni) (hj : j1 < j2) :
    rgdint1w ni j1 j2 2 z px py =
      rgdint1nw (ni + 1) j1 j2 (fun k j => if k = ni + 1 then z 1 j else z k j) px py ∧
    rgdint1w ni j1 j2 1 z px py = rgdint1nw ni j1 j2 z px py := by
  unfold rgdint1w rgdint1nw
  simp only
  constructor
  · have hi : ∃ k, min (ni - 2 + 2) (max 1 (ifix px)) = k := ⟨_, rfl⟩
    obtain ⟨i, hi⟩ := hi
    rw [hi, show min (ni + 1 - 1) (max 1 (ifix px)) = i by omega]
    generalize hjj : min (j2 - 1) (max j1 (ifix py)) = j
    by_cases hs : i = ni
    · rw [if_pos ⟨by omega, by omega⟩, show ni + 2 - 2 + i + 1 = 2 * ni + 1 by omega,
        show ni + 2 - 2 = ni by omega, emod_two (by omega) (by omega),
        bilin_some (by omega) (by omega) (by omega) (by omega) (by omega) (by omega),
        bilin_some (by omega) (by omega) (by omega) (by omega) (by omega) (by omega)]
      simp only [if_neg (show ¬ i = ni + 1 by omega), if_pos (show i + 1 = ni + 1 by omega),
        show 2 * ni + 1 - 2 * ni = 1 by omega]
    · rw [if_neg (by omega),
        bilin_some (by omega) (by omega) (by omega) (by omega) (by omega) (by omega),
        bilin_some (by omega) (by omega) (by omega) (by omega) (by omega) (by omega)]
      simp only [if_neg (show ¬ i = ni + 1 by omega), if_neg (show ¬ i + 1 = ni + 1 by omega)]
  · have hi : ∃ k, min (ni - 2 + 1) (max 1 (ifix px)) = k := ⟨_, rfl⟩
    obtain ⟨i, hi⟩ := hi
    rw [hi, show min (ni - 1) (max 1 (ifix px)) = i by omega]
    by_cases hs : i = ni - 1
    · rw [if_pos ⟨by omega, by omega⟩, show ni + 2 - 1 + i + 1 = 2 * ni + 1 by omega,
        show ni + 2 - 1 = ni + 1 by omega, emod_one (by omega) (by omega),
        show 2 * ni + 1 - (ni + 1) = i + 1 by omega]
    · rw [if_neg (by omega)]

/-- With extension 2 the columns are the neighbours on the circle of `ni` columns. -/
theorem cols3w_two (ni i : ℤ) (hni : 3 ≤ ni) (h1 : 1 ≤ i) (h2 : i ≤ ni) :
    cols3w ni 2 i = (turn ni (i - 1), turn ni (i + 1), turn ni (i + 2)) := by
  unfold cols3w
  simp only [show (0 : ℤ) < 2 by omega, if_true, show ¬ (2 : ℤ) = 1 by omega, false_and, if_false,
    show ni + 2 - 2 = ni by omega]
  refine Prod.ext ?_ (Prod.ext ?_ ?_)
  · simp only
    rw [show (ni + i - 1) % ni = i - 1 by rw [emod_one (by omega) (by omega)]; omega]
    split
    · rw [turn_low (by omega) (by omega)]; omega
    · rw [turn_mid (by omega) (by omega)]
  · simp only
    rcases lt_trichotomy (i + 1) ni with h | h | h
    · rw [show (ni + i + 1) % ni = i + 1 by rw [emod_one (by omega) (by omega)]; omega,
        if_neg (by omega), turn_mid (by omega) (by omega)]
    · rw [show (ni + i + 1) % ni = 0 by rw [emod_two (by omega) (by omega)]; omega,
        if_pos rfl, turn_mid (by omega) (by omega)]; omega
    · rw [show (ni + i + 1) % ni = 1 by rw [emod_two (by omega) (by omega)]; omega,
        if_neg (by omega), turn_high (by omega) (by omega)]; omega
  · simp only
    rcases lt_trichotomy (i + 2) ni with h | h | h
    · rw [show (ni + i + 2) % ni = i + 2 by rw [emod_one (by omega) (by omega)]; omega,
        if_neg (by omega), turn_mid (by omega) (by omega)]
    · rw [show (ni + i + 2) % ni = 0 by rw [emod_two (by omega) (by omega)]; omega,
        if_pos rfl, turn_mid (by omega) (by omega)]; omega
    · rw [show (ni + i + 2) % ni = i + 2 - ni by rw [emod_two (by omega) (by omega)]; omega,
        if_neg (by omega), turn_high (by omega) (by omega)]

/-- **C77, bicubic, extension 2.**  At every position the kernel that wraps gives the value of the
plain kernel on the array widened to `ni + 3` columns, the last column first and the first two
columns repeated at the end. -/
theorem C77_bicubic (ni j1 j2 : ℤ) (z : ℤ → ℤ → ℚ) (px py : ℚ) (hni : 3 ≤ ni) (hj : j1 + 3 ≤ j2) :
    rgdint3w ni j1 j2 2 z px py =
      rgdint3nw (ni + 3) j1 j2 (fun k j => z ((k - 2) % ni + 1) j) (px + 1) py := by
  unfold rgdint3w rgdint3nw
  simp only
  have hs := ifix_succ px
  have hi : ∃ k, min (ni - 2 + 2) (max 1 (max (2 - 2) (ifix px))) = k := ⟨_, rfl⟩
  obtain ⟨i, hi⟩ := hi
  rw [hi, show min (ni + 3 - 2) (max 2 (ifix (px + 1))) = i + 1 by omega,
    cols3w_two ni i hni (by omega) (by omega)]
  have b : ∀ k, 1 ≤ turn ni k ∧ turn ni k ≤ ni := by
    intro k
    have h1 := Int.emod_nonneg (k - 1) (show ni ≠ 0 by omega)
    have h2 := Int.emod_lt_of_pos (k - 1) (show 0 < ni by omega)
    unfold turn; omega
  rw [bicubic_some (b _) (by omega) (b _) (b _) (by omega) (by omega),
    bicubic_some (by omega) (by omega) (by omega) (by omega) (by omega) (by omega)]
  have e : ∀ k, (k - 2) % ni + 1 = turn ni (k - 1) := by
    intro k; unfold turn; rw [show k - 1 - 1 = k - 2 by omega]
  unfold value16
  simp only [e]
  rw [show i + 1 - 1 - 1 = i - 1 by omega, show i + 1 - 1 = i by omega,
    show i + 1 + 1 - 1 = i + 1 by omega, show i + 1 + 2 - 1 = i + 2 by omega,
    turn_mid (n := ni) (k := i) (by omega) (by omega),
    show px + 1 - ((i + 1 : ℤ) : ℚ) = px - i by push_cast; ring]

/-- With extension 1, outside one cell, the columns are the neighbours on the circle. -/
theorem cols3w_one (ni i : ℤ) (hni : 4 ≤ ni) (h1 : 1 ≤ i) (h2 : i ≤ ni - 1) (h3 : i ≠ ni - 2) :
    cols3w ni 1 i = (turn (ni - 1) (i - 1), i + 1, turn (ni - 1) (i + 2)) := by
  unfold cols3w
  simp only [show (0 : ℤ) < 1 by omega, if_true, true_and,
    show ni + 2 - 1 = ni + 1 by omega]
  refine Prod.ext ?_ (Prod.ext ?_ ?_)
  · simp only
    rw [show (ni + 1 + i - 1) % (ni + 1) = i - 1 by rw [emod_one (by omega) (by omega)]; omega]
    by_cases h : i = 1
    · rw [if_pos (by omega : i - 1 = 0), if_pos rfl, turn_low (by omega) (by omega)]; omega
    · rw [if_neg (by omega : ¬ i - 1 = 0), if_neg (by omega), turn_mid (by omega) (by omega)]
  · simp only
    rw [show (ni + 1 + i + 1) % (ni + 1) = i + 1 by rw [emod_one (by omega) (by omega)]; omega,
      if_neg (by omega)]
  · simp only
    by_cases h : i = ni - 1
    · rw [show (ni + 1 + i + 2) % (ni + 1) = 0 by rw [emod_two (by omega) (by omega)]; omega,
        if_pos rfl, if_pos rfl, turn_high (by omega) (by omega)]; omega
    · rw [show (ni + 1 + i + 2) % (ni + 1) = i + 2 by rw [emod_one (by omega) (by omega)]; omega,
        if_neg (by omega), if_neg (by omega), turn_mid (by omega) (by omega)]

/-- **C77, bicubic, extension 1.**  When the last column repeats the first, and the position does
not lie in the cell between the columns `ni - 2` and `ni - 1`, the kernel that wraps gives the
value of the plain kernel on the array widened with the column before the last at the front and
the second column at the end.  (In the cell left out the claim is false: see
`C77_seam_witness`.) -/
theorem C77_bicubic_partial (ni j1 j2 : ℤ) (z : ℤ → ℤ → ℚ) (px py : ℚ) (hni : 4 ≤ ni)
    (hj : j1 + 3 ≤ j2) (hz : ∀ j, z ni j = z 1 j) (hc : ifix px ≠ ni - 2) :
    rgdint3w ni j1 j2 1 z px py =
      rgdint3nw (ni + 2) j1 j2 (fun k j => z ((k - 2) % (ni - 1) + 1) j) (px + 1) py := by
  unfold rgdint3w rgdint3nw
  simp only
  have hs := ifix_succ px
  have hi : ∃ k, min (ni - 2 + 1) (max 1 (max (2 - 1) (ifix px))) = k := ⟨_, rfl⟩
  obtain ⟨i, hi⟩ := hi
  rw [hi, show min (ni + 2 - 2) (max 2 (ifix (px + 1))) = i + 1 by omega,
    cols3w_one ni i hni (by omega) (by omega) (by omega)]
  have b : ∀ k, 1 ≤ turn (ni - 1) k ∧ turn (ni - 1) k ≤ ni := by
    intro k
    have h1 := Int.emod_nonneg (k - 1) (show ni - 1 ≠ 0 by omega)
    have h2 := Int.emod_lt_of_pos (k - 1) (show 0 < ni - 1 by omega)
    unfold turn; omega
  dsimp only
  rw [bicubic_some (b _) (by omega) (by omega) (b _) (by omega) (by omega),
    bicubic_some (by omega) (by omega) (by omega) (by omega) (by omega) (by omega)]
  have e : ∀ k, (k - 2) % (ni - 1) + 1 = turn (ni - 1) (k - 1) := by
    intro k; unfold turn; rw [show k - 1 - 1 = k - 2 by omega]
  have s : ∀ l, z (turn (ni - 1) (i + 1)) l = z (i + 1) l := by
    intro l
    by_cases h : i = ni - 1
    · rw [turn_high (by omega) (by omega), show i + 1 - (ni - 1) = 1 by omega,
        show i + 1 = ni by omega, hz]
    · rw [turn_mid (by omega) (by omega)]
  unfold value16
  simp only [e]
  rw [show i + 1 - 1 - 1 = i - 1 by omega, show i + 1 - 1 = i by omega,
    show i + 1 + 1 - 1 = i + 1 by omega, show i + 1 + 2 - 1 = i + 2 by omega,
    turn_mid (n := ni - 1) (k := i) (by omega) (by omega),
    show px + 1 - ((i + 1 : ℤ) : ℚ) = px - i by push_cast; ring]
  simp only [s]

/-- A global field of eight columns, the last one a copy of the first. -/
def lap (k _j : ℤ) : ℚ := if k = 1 ∨ k = 8 then 0 else if k = 2 then 1 else if k = 7 then -1 else 0

/-- **C77, the wrong column.**  With extension 1 and a position between the columns 6 and 7 of 8,
the fourth column is the second instead of the eighth: the value differs from that of the widened
array. -/
theorem C77_seam_witness :
    (∀ j, lap 8 j = lap 1 j) ∧ ifix (13 / 2) = 8 - 2 ∧
      rgdint3w 8 1 4 1 lap (13 / 2) 2 ≠
        rgdint3nw 10 1 4 (fun k j => lap ((k - 2) % (8 - 1) + 1) j) (13 / 2 + 1) 2 := by
  refine ⟨fun j => by simp [lap], by decide +kernel, by decide +kernel⟩

/-- The error is the coefficient of the fourth point times the difference of the two columns, at
any position of the cell and for any field. -/
theorem C77_seam_error (ni j1 j2 : ℤ) (z : ℤ → ℤ → ℚ) (px : ℚ) (j : ℤ) (hni : 4 ≤ ni)
    (hj1 : j1 + 1 ≤ j) (hj2 : j ≤ j2 - 2) (hc : ifix px = ni - 2) :
    ∃ r s, rgdint3w ni j1 j2 1 z px j = some r ∧ rgdint3nw ni j1 j2 z px j = some s ∧
      r - s = c6 * ((px - (ni - 2)) ^ 3 - (px - (ni - 2))) * (z 2 j - z ni j) := by
  have h0 : cols3w ni 1 (ni - 2) = (ni - 3, ni - 1, 2) := by
    unfold cols3w
    simp only [show (0 : ℤ) < 1 by omega, if_true, true_and, show ni + 2 - 1 = ni + 1 by omega]
    refine Prod.ext ?_ (Prod.ext ?_ ?_)
    · simp only
      rw [show (ni + 1 + (ni - 2) - 1) % (ni + 1) = ni - 3 by
        rw [emod_one (by omega) (by omega)]; omega, if_neg (by omega), if_neg (by omega)]
    · simp only
      rw [show (ni + 1 + (ni - 2) + 1) % (ni + 1) = ni - 1 by
        rw [emod_one (by omega) (by omega)]; omega, if_neg (by omega)]
    · simp only
      rw [show (ni + 1 + (ni - 2) + 2) % (ni + 1) = ni by
        rw [emod_one (by omega) (by omega)]; omega, if_neg (show ¬ ni = 0 by omega), if_pos rfl]
  have e1 : rgdint3w ni j1 j2 1 z px j =
      some (value16 z (ni - 3) (ni - 2) (ni - 1) 2 j (px - (ni - 2 : ℤ)) 0) := by
    unfold rgdint3w
    simp only [ifix_int, hc]
    rw [show min (ni - 2 + 1) (max 1 (max (2 - 1) (ni - 2))) = ni - 2 by omega,
      show min (j2 - 2) (max (j1 + 1) j) = j by omega, h0]
    dsimp only
    rw [bicubic_some (by omega) (by omega) (by omega) (by omega) (by omega) (by omega), sub_self]
  have e2 : rgdint3nw ni j1 j2 z px j =
      some (value16 z (ni - 3) (ni - 2) (ni - 1) ni j (px - (ni - 2 : ℤ)) 0) := by
    unfold rgdint3nw
    simp only [ifix_int, hc]
    rw [show min (ni - 2) (max 2 (ni - 2)) = ni - 2 by omega,
      show min (j2 - 2) (max (j1 + 1) j) = j by omega,
      bicubic_some (by omega) (by omega) (by omega) (by omega) (by omega) (by omega), sub_self,
      show ni - 2 - 1 = ni - 3 by omega, show ni - 2 + 1 = ni - 1 by omega,
      show ni - 2 + 2 = ni by omega]
  refine ⟨_, _, e1, e2, ?_⟩
  unfold value16 cubic cubicWith
  push_cast
  ring

/-- Across the seam of five columns that do not repeat. -/
example : rgdint3w 5 1 4 2 (fun k j => k * k + j) (21 / 4) 2 =
    rgdint3nw 8 1 4 (fun k j => ((k - 2) % 5 + 1 : ℤ) * ((k - 2) % 5 + 1 : ℤ) + j) (25 / 4) 2 := by
  decide +kernel

end Verif.EzInterp
