/-
C76: interpolation on a regular grid.

Positions are fractional indices.  The nearest neighbour kernel returns the value of a grid point
at a distance of at most one half in both directions.  The bilinear kernel never reads outside
the array, returns the value of the grid point at a grid point, never leaves the interval spanned
by the four surrounding values, and reproduces every field `a + b x + c y + d x y`.  The bicubic
kernel never reads outside the array and reproduces every polynomial of degree three in each
direction up to the error made by two constants written in single precision; for a constant field
that error is given exactly.
-/
import Verif.EzInterp
import Mathlib.Tactic.Linarith
import Mathlib.Tactic.Ring
import Mathlib.Tactic.FieldSimp
import Mathlib.Tactic.NormNum
import Mathlib.Tactic.LinearCombination
import Mathlib.Tactic.Positivity

namespace Verif.EzInterp

/-! ### Truncation and rounding -/

theorem ifix_spec (q : ℚ) (h : 0 ≤ q) : (ifix q : ℚ) ≤ q ∧ q < ifix q + 1 := by
  unfold ifix
  rw [if_pos h]
  exact ⟨Int.floor_le q, Int.lt_floor_add_one q⟩

theorem ifix_int (n : ℤ) : ifix (n : ℚ) = n := by
  unfold ifix
  split <;> simp

theorem nint_spec (q : ℚ) : |q - nint q| ≤ 1 / 2 := by
  unfold nint
  split
  · have h1 := Int.floor_le (q + 1 / 2)
    have h2 := Int.lt_floor_add_one (q + 1 / 2)
    rw [abs_le]; constructor <;> linarith
  · have h1 := Int.le_ceil (q - 1 / 2)
    have h2 := Int.ceil_lt_add_one (q - 1 / 2)
    rw [abs_le]; constructor <;> linarith

theorem rd_some {ni j1 j2 : ℤ} {z : ℤ → ℤ → ℚ} {i j : ℤ} (h1 : 1 ≤ i) (h2 : i ≤ ni)
    (h3 : j1 ≤ j) (h4 : j ≤ j2) : rd ni j1 j2 z i j = some (z i j) := by
  unfold rd; rw [if_pos ⟨h1, h2, h3, h4⟩]

/-- Clamping the integer part of a position inside the grid gives a cell that contains it. -/
theorem clamp_cell (lo hi : ℤ) (q : ℚ) (hlo : (lo : ℚ) ≤ q) (hhi : q ≤ hi) (h0 : 0 ≤ q)
    (hlt : lo < hi) :
    let i := min (hi - 1) (max lo (ifix q))
    lo ≤ i ∧ i + 1 ≤ hi ∧ (i : ℚ) ≤ q ∧ q ≤ i + 1 := by
  intro i
  obtain ⟨h1, h2⟩ := ifix_spec q h0
  have hle : lo ≤ ifix q := by
    have : (lo : ℚ) < ifix q + 1 := lt_of_le_of_lt hlo h2
    have : lo < ifix q + 1 := by exact_mod_cast this
    omega
  have hle2 : ifix q ≤ hi := by
    have : (ifix q : ℚ) ≤ hi := le_trans h1 hhi
    exact_mod_cast this
  by_cases hc : ifix q = hi
  · have hi' : i = hi - 1 := by simp only [i]; omega
    rw [hc] at h1
    have hq : q = hi := le_antisymm hhi h1
    refine ⟨by omega, by omega, ?_, ?_⟩
    · rw [hi', hq]; push_cast; linarith
    · rw [hi', hq]; push_cast; linarith
  · have hi' : i = ifix q := by simp only [i]; omega
    rw [hi']
    exact ⟨hle, by omega, h1, h2.le⟩

/-! ### The nearest neighbour -/

/-- **C76, nearest neighbour.**  Inside the grid the value returned is that of a grid point at a
distance of at most one half along each axis; outside it, that of the clamped point. -/
theorem C76_nearest (ni j1 j2 : ℤ) (z : ℤ → ℤ → ℚ) (px py : ℚ) (hni : 1 ≤ ni) (hj : j1 ≤ j2) :
    ∃ i j, 1 ≤ i ∧ i ≤ ni ∧ j1 ≤ j ∧ j ≤ j2 ∧ rgdint0 ni j1 j2 z px py = some (z i j) ∧
      (1 ≤ px → px ≤ ni → |px - i| ≤ 1 / 2) ∧ ((j1 : ℚ) ≤ py → py ≤ j2 → |py - j| ≤ 1 / 2) ∧
      (px < 1 → i = 1) ∧ (ni < px → i = ni) := by
  have key : ∀ (lo hi : ℤ) (q : ℚ), lo ≤ hi → (lo : ℚ) ≤ q → q ≤ hi →
      |q - (min hi (max lo (nint q)) : ℤ)| ≤ 1 / 2 := by
    intro lo hi q hlh hl hh
    have h := nint_spec q
    rw [abs_le] at h
    have h1 : lo ≤ nint q := by
      have : (lo : ℚ) < nint q + 1 := by linarith
      have : lo < nint q + 1 := by exact_mod_cast this
      omega
    have h2 : nint q ≤ hi := by
      have : (nint q : ℚ) < hi + 1 := by linarith
      have : nint q < hi + 1 := by exact_mod_cast this
      omega
    rw [max_eq_right h1, min_eq_right h2]
    exact nint_spec q
  refine ⟨min ni (max 1 (nint px)), min j2 (max j1 (nint py)), by omega, by omega, by omega,
    by omega, ?_, ?_, ?_, ?_, ?_⟩
  · exact rd_some (by omega) (by omega) (by omega) (by omega)
  · intro h1 h2
    exact key 1 ni px hni (by exact_mod_cast h1) h2
  · exact key j1 j2 py hj
  · intro h
    have := nint_spec px
    rw [abs_le] at this
    have h' : (nint px : ℚ) < 2 := by linarith
    have : nint px < 2 := by exact_mod_cast h'
    omega
  · intro h
    have := nint_spec px
    rw [abs_le] at this
    have h' : (ni : ℚ) < nint px + 1 := by linarith
    have : ni < nint px + 1 := by exact_mod_cast h'
    omega

/-! ### The bilinear kernel -/

theorem bilin_some {ni j1 j2 : ℤ} {z : ℤ → ℤ → ℚ} {i ip j : ℤ} {dx dy : ℚ} (h1 : 1 ≤ i)
    (h2 : i ≤ ni) (h3 : 1 ≤ ip) (h4 : ip ≤ ni) (h5 : j1 ≤ j) (h6 : j + 1 ≤ j2) :
    bilin ni j1 j2 z i ip j dx dy =
      some (zlin (zlin (z i j) (z ip j) dx) (zlin (z i (j + 1)) (z ip (j + 1)) dx) dy) := by
  unfold bilin
  rw [rd_some h1 h2 h5 (by omega), rd_some h3 h4 h5 (by omega), rd_some h1 h2 (by omega) h6,
    rd_some h3 h4 (by omega) h6]
  rfl

theorem zlin_between {a b dx lo hi : ℚ} (h0 : 0 ≤ dx) (h1 : dx ≤ 1) (ha : lo ≤ a ∧ a ≤ hi)
    (hb : lo ≤ b ∧ b ≤ hi) : lo ≤ zlin a b dx ∧ zlin a b dx ≤ hi := by
  unfold zlin
  constructor
  · nlinarith [mul_le_mul_of_nonneg_right ha.1 (sub_nonneg.mpr h1),
      mul_le_mul_of_nonneg_right hb.1 h0]
  · nlinarith [mul_le_mul_of_nonneg_right ha.2 (sub_nonneg.mpr h1),
      mul_le_mul_of_nonneg_right hb.2 h0]

/-- **C76, bilinear, reproduction.**  For every grid with two columns and two rows and every
position, inside the grid or not, the kernel reads only the array and reproduces every field
`a + b x + c y + d x y`. -/
theorem C76_bilinear_exact (ni j1 j2 : ℤ) (z : ℤ → ℤ → ℚ) (px py a b c d : ℚ) (hni : 2 ≤ ni)
    (hj : j1 < j2)
    (hz : ∀ i j, 1 ≤ i → i ≤ ni → j1 ≤ j → j ≤ j2 → z i j = a + b * i + c * j + d * i * j) :
    rgdint1nw ni j1 j2 z px py = some (a + b * px + c * py + d * px * py) := by
  unfold rgdint1nw
  simp only
  generalize hi : min (ni - 1) (max 1 (ifix px)) = i
  generalize hj' : min (j2 - 1) (max j1 (ifix py)) = j
  rw [bilin_some (by omega) (by omega) (by omega) (by omega) (by omega) (by omega),
    hz i j (by omega) (by omega) (by omega) (by omega),
    hz (i + 1) j (by omega) (by omega) (by omega) (by omega),
    hz i (j + 1) (by omega) (by omega) (by omega) (by omega),
    hz (i + 1) (j + 1) (by omega) (by omega) (by omega) (by omega)]
  unfold zlin
  congr 1
  push_cast
  ring

/-- **C76, bilinear, bounds.**  Inside the grid the position lies in a cell of the grid, and the
value lies between any two bounds of the four values at the corners of that cell. -/
theorem C76_bilinear_between (ni j1 j2 : ℤ) (z : ℤ → ℤ → ℚ) (px py : ℚ) (hni : 2 ≤ ni)
    (hj : j1 < j2) (hx1 : 1 ≤ px) (hx2 : px ≤ ni) (hy1 : (j1 : ℚ) ≤ py) (hy2 : py ≤ j2)
    (hy0 : 0 ≤ py) :
    ∃ i j r, 1 ≤ i ∧ i + 1 ≤ ni ∧ j1 ≤ j ∧ j + 1 ≤ j2 ∧
      (i : ℚ) ≤ px ∧ px ≤ i + 1 ∧ (j : ℚ) ≤ py ∧ py ≤ j + 1 ∧
      rgdint1nw ni j1 j2 z px py = some r ∧
      ∀ lo hi, (∀ k l, (k = i ∨ k = i + 1) → (l = j ∨ l = j + 1) → lo ≤ z k l ∧ z k l ≤ hi) →
        lo ≤ r ∧ r ≤ hi := by
  obtain ⟨a1, a2, a3, a4⟩ := clamp_cell 1 ni px (by exact_mod_cast hx1) hx2 (by linarith) (by omega)
  obtain ⟨b1, b2, b3, b4⟩ := clamp_cell j1 j2 py hy1 hy2 hy0 hj
  unfold rgdint1nw
  simp only
  generalize min (ni - 1) (max 1 (ifix px)) = i at *
  generalize min (j2 - 1) (max j1 (ifix py)) = j at *
  refine ⟨i, j, _, a1, a2, b1, b2, a3, a4, b3, b4,
    bilin_some a1 (by omega) (by omega) a2 b1 b2, ?_⟩
  intro lo hi h
  refine zlin_between (by linarith) (by linarith) ?_ ?_
  · exact zlin_between (by linarith) (by linarith) (h i j (Or.inl rfl) (Or.inl rfl))
      (h (i + 1) j (Or.inr rfl) (Or.inl rfl))
  · exact zlin_between (by linarith) (by linarith) (h i (j + 1) (Or.inl rfl) (Or.inr rfl))
      (h (i + 1) (j + 1) (Or.inr rfl) (Or.inr rfl))

/-- **C76, bilinear, grid points.**  At a grid point, the last column and the last row included,
the result is the value of the point. -/
theorem C76_bilinear_point (ni j1 j2 : ℤ) (z : ℤ → ℤ → ℚ) (i j : ℤ) (hni : 2 ≤ ni) (hj : j1 < j2)
    (h1 : 1 ≤ i) (h2 : i ≤ ni) (h3 : j1 ≤ j) (h4 : j ≤ j2) :
    rgdint1nw ni j1 j2 z (i : ℚ) (j : ℚ) = some (z i j) := by
  unfold rgdint1nw
  simp only [ifix_int]
  have hi : ∃ k, min (ni - 1) (max 1 i) = k ∧ (k = i ∨ k + 1 = i) := ⟨_, rfl, by omega⟩
  have hj' : ∃ l, min (j2 - 1) (max j1 j) = l ∧ (l = j ∨ l + 1 = j) := ⟨_, rfl, by omega⟩
  obtain ⟨k, hk, hk'⟩ := hi
  obtain ⟨l, hl, hl'⟩ := hj'
  rw [hk, hl, bilin_some (by omega) (by omega) (by omega) (by omega) (by omega) (by omega)]
  unfold zlin
  congr 1
  rcases hk' with rfl | rfl <;> rcases hl' with rfl | rfl <;> push_cast <;> ring

/-- A position inside a 3 by 3 grid. -/
example : rgdint1nw 3 1 3 (fun i j => i * i + 10 * j) (5 / 2) (3 / 2) = some (43 / 2) := by
  decide +kernel

/-- **C76, a position between the rows -1 and 0.**  The integer part is truncated towards zero, so
that with rows of negative numbers (a hemisphere mirrored about the equator) a position between
the rows -1 and 0 is extrapolated from the rows 0 and 1: the field is 0 on the row 0 and 5 on the
other rows, and the value midway between -1 and 0 is -5/2. -/
theorem C76_negative_witness :
    rgdint1nw 2 (-1) 2 (fun _ j => if j = 0 then 0 else 5) 1 (-1 / 2) = some (-5 / 2) := by
  decide +kernel

/-! ### The bicubic kernel -/

/-- A cubic polynomial of one variable. -/
def pol (c : Fin 4 → ℚ) (x : ℚ) : ℚ := c 0 + c 1 * x + c 2 * x ^ 2 + c 3 * x ^ 3

/-- A polynomial of degree three in each of two variables. -/
def pol2 (c : Fin 4 → Fin 4 → ℚ) (x y : ℚ) : ℚ := pol (fun a => pol (c a) y) x

/-- The single precision constants are the multiples of `2^-26` and `2^-25` nearest to the
decimals written in cubic8.cdk. -/
theorem constants : |c6 - 1666666666666 / 10000000000000| ≤ 1 / 2 ^ 27 ∧
    |c3 - 3333333333333 / 10000000000000| ≤ 1 / 2 ^ 26 ∧
    c6 = 11184811 / 2 ^ 26 ∧ c3 = 11184811 / 2 ^ 25 := by
  unfold c6 c3
  refine ⟨?_, ?_, ?_, ?_⟩ <;> norm_num [abs_le]

/-- The cubic of the exact constants. -/
def cubicE (z1 z2 z3 z4 dx : ℚ) : ℚ := cubicWith (1 / 6) (1 / 3) z1 z2 z3 z4 dx

theorem cubicE_pol (c : Fin 4 → ℚ) (x dx : ℚ) :
    cubicE (pol c (x - 1)) (pol c x) (pol c (x + 1)) (pol c (x + 2)) dx = pol c (x + dx) := by
  unfold cubicE cubicWith pol
  ring

/-- The error made by the constants. -/
theorem cubic_err (z1 z2 z3 z4 dx : ℚ) :
    cubic z1 z2 z3 z4 dx - cubicE z1 z2 z3 z4 dx =
      ((dx ^ 3 - dx) * z4 - (dx ^ 3 + 2 * dx) * z1) / (3 * 2 ^ 26) := by
  unfold cubic cubicE cubicWith c6 c3
  ring

theorem cubicE_lagrange (z1 z2 z3 z4 dx : ℚ) :
    cubicE z1 z2 z3 z4 dx =
      -(dx * (dx - 1) * (dx - 2) / 6) * z1 + (dx + 1) * (dx - 1) * (dx - 2) / 2 * z2
      - (dx + 1) * dx * (dx - 2) / 2 * z3 + (dx + 1) * dx * (dx - 1) / 6 * z4 := by
  unfold cubicE cubicWith
  ring

theorem cubicE_sub (a1 a2 a3 a4 b1 b2 b3 b4 dx : ℚ) :
    cubicE a1 a2 a3 a4 dx - cubicE b1 b2 b3 b4 dx =
      cubicE (a1 - b1) (a2 - b2) (a3 - b3) (a4 - b4) dx := by
  unfold cubicE cubicWith; ring

theorem abs_mul_le {a b A B : ℚ} (ha : |a| ≤ A) (hb : |b| ≤ B) : |a * b| ≤ A * B := by
  rw [abs_mul]
  exact mul_le_mul ha hb (abs_nonneg _) (le_trans (abs_nonneg _) ha)

theorem sum4_le {w1 w2 w3 w4 z1 z2 z3 z4 A1 A2 A3 A4 M : ℚ}
    (a1 : |w1| ≤ A1) (a2 : |w2| ≤ A2) (a3 : |w3| ≤ A3) (a4 : |w4| ≤ A4)
    (b1 : |z1| ≤ M) (b2 : |z2| ≤ M) (b3 : |z3| ≤ M) (b4 : |z4| ≤ M) :
    |w1 * z1 + w2 * z2 + w3 * z3 + w4 * z4| ≤ (A1 + A2 + A3 + A4) * M := by
  have h1 := abs_mul_le a1 b1
  have h2 := abs_mul_le a2 b2
  have h3 := abs_mul_le a3 b3
  have h4 := abs_mul_le a4 b4
  rw [abs_le] at *
  constructor <;> linarith [h1.1, h1.2, h2.1, h2.2, h3.1, h3.2, h4.1, h4.2]

/-- In the middle cell the exact cubic grows the values by at most a quarter. -/
theorem cubicE_inner {z1 z2 z3 z4 dx M : ℚ} (h0 : 0 ≤ dx) (h1 : dx ≤ 1) (hM : 0 ≤ M)
    (b1 : |z1| ≤ M) (b2 : |z2| ≤ M) (b3 : |z3| ≤ M) (b4 : |z4| ≤ M) :
    |cubicE z1 z2 z3 z4 dx| ≤ 5 / 4 * M := by
  have e : cubicE z1 z2 z3 z4 dx =
      (-(dx * (1 - dx) * (2 - dx) / 6)) * z1 + ((dx + 1) * (1 - dx) * (2 - dx) / 2) * z2
      + ((dx + 1) * dx * (2 - dx) / 2) * z3 + (-((dx + 1) * dx * (1 - dx) / 6)) * z4 := by
    rw [cubicE_lagrange]; ring
  have p1 : 0 ≤ 1 - dx := by linarith
  have p2 : 0 ≤ 2 - dx := by linarith
  have p3 : 0 ≤ dx + 1 := by linarith
  rw [e]
  refine le_trans (sum4_le (A1 := dx * (1 - dx) * (2 - dx) / 6)
    (A2 := (dx + 1) * (1 - dx) * (2 - dx) / 2) (A3 := (dx + 1) * dx * (2 - dx) / 2)
    (A4 := (dx + 1) * dx * (1 - dx) / 6) ?_ ?_ ?_ ?_ b1 b2 b3 b4) ?_
  · rw [abs_neg, abs_of_nonneg (by positivity)]
  · rw [abs_of_nonneg (by positivity)]
  · rw [abs_of_nonneg (by positivity)]
  · rw [abs_neg, abs_of_nonneg (by positivity)]
  · apply mul_le_mul_of_nonneg_right _ hM
    nlinarith [sq_nonneg (dx - 1 / 2)]

/-- In the three cells the exact cubic grows the values by at most four and a half. -/
theorem cubicE_outer {z1 z2 z3 z4 dx M : ℚ} (h0 : -1 ≤ dx) (h1 : dx ≤ 2) (_hM : 0 ≤ M)
    (b1 : |z1| ≤ M) (b2 : |z2| ≤ M) (b3 : |z3| ≤ M) (b4 : |z4| ≤ M) :
    |cubicE z1 z2 z3 z4 dx| ≤ 9 / 2 * M := by
  have e : cubicE z1 z2 z3 z4 dx =
      (-(dx * (dx - 1) * (dx - 2) / 6)) * z1 + ((dx + 1) * (dx - 1) * (dx - 2) / 2) * z2
      + (-((dx + 1) * dx * (dx - 2) / 2)) * z3 + ((dx + 1) * dx * (dx - 1) / 6) * z4 := by
    rw [cubicE_lagrange]; ring
  have p1 : 0 ≤ 2 - dx := by linarith
  have p3 : 0 ≤ dx + 1 := by linarith
  have q := mul_nonneg p1 p3
  rw [e]
  refine le_trans (sum4_le (A1 := 1) (A2 := 5 / 4) (A3 := 5 / 4) (A4 := 1) ?_ ?_ ?_ ?_ b1 b2 b3 b4)
    ?_
  · rw [abs_le]
    constructor <;> nlinarith [mul_nonneg q p1, mul_nonneg q p3, sq_nonneg dx, sq_nonneg (dx - 1),
      mul_nonneg p3 (sq_nonneg (dx - 1)), mul_nonneg p1 (sq_nonneg dx), mul_nonneg p3 (sq_nonneg (dx - 2)), mul_nonneg p1 (sq_nonneg (dx + 1))]
  · rw [abs_le]
    constructor <;> nlinarith [mul_nonneg q p1, mul_nonneg q p3, sq_nonneg dx, sq_nonneg (dx - 1),
      mul_nonneg p3 (sq_nonneg (dx - 3 / 2)), mul_nonneg p1 (sq_nonneg (dx + 1 / 4)), mul_nonneg p3 (sq_nonneg (dx + 1 / 4)), mul_nonneg p1 (sq_nonneg (dx - 3 / 2))]
  · rw [abs_le]
    constructor <;> nlinarith [mul_nonneg q p1, mul_nonneg q p3, sq_nonneg dx, sq_nonneg (dx - 1),
      mul_nonneg p3 (sq_nonneg (dx - 5 / 4)), mul_nonneg p1 (sq_nonneg (dx + 1 / 2)), mul_nonneg p3 (sq_nonneg (dx + 1 / 2)), mul_nonneg p1 (sq_nonneg (dx - 5 / 4))]
  · rw [abs_le]
    constructor <;> nlinarith [mul_nonneg q p1, mul_nonneg q p3, sq_nonneg dx, sq_nonneg (dx - 1),
      mul_nonneg p3 (sq_nonneg (dx - 1)), mul_nonneg p1 (sq_nonneg dx), mul_nonneg p3 (sq_nonneg (dx - 2)), mul_nonneg p1 (sq_nonneg (dx + 1))]
  · nlinarith

theorem err_inner {z1 z2 z3 z4 dx M : ℚ} (h0 : 0 ≤ dx) (h1 : dx ≤ 1)
    (b1 : |z1| ≤ M) (b4 : |z4| ≤ M) :
    |cubic z1 z2 z3 z4 dx - cubicE z1 z2 z3 z4 dx| ≤ M / 2 ^ 26 := by
  have hM : 0 ≤ M := le_trans (abs_nonneg _) b1
  rw [cubic_err, abs_div, abs_of_pos (by norm_num : (0 : ℚ) < 3 * 2 ^ 26), div_le_div_iff₀
    (by norm_num) (by norm_num)]
  have p1 : |(dx ^ 3 - dx) * z4| ≤ (dx - dx ^ 3) * M := by
    apply abs_mul_le _ b4
    rw [abs_sub_comm, abs_of_nonneg]
    nlinarith [mul_nonneg (mul_nonneg h0 (sub_nonneg.mpr h1)) (by linarith : (0 : ℚ) ≤ 1 + dx)]
  have p2 : |(dx ^ 3 + 2 * dx) * z1| ≤ (dx ^ 3 + 2 * dx) * M := by
    apply abs_mul_le _ b1
    rw [abs_of_nonneg (by positivity)]
  have p3 : |(dx ^ 3 - dx) * z4 - (dx ^ 3 + 2 * dx) * z1| ≤ 3 * M := by
    rw [abs_le] at *
    have : dx * M ≤ 1 * M := mul_le_mul_of_nonneg_right h1 hM
    constructor <;> linarith [p1.1, p1.2, p2.1, p2.2]
  linarith

theorem err_outer {z1 z2 z3 z4 dx M : ℚ} (h0 : -1 ≤ dx) (h1 : dx ≤ 2)
    (b1 : |z1| ≤ M) (b4 : |z4| ≤ M) :
    |cubic z1 z2 z3 z4 dx - cubicE z1 z2 z3 z4 dx| ≤ 6 * M / 2 ^ 26 := by
  have hM : 0 ≤ M := le_trans (abs_nonneg _) b1
  rw [cubic_err, abs_div, abs_of_pos (by norm_num : (0 : ℚ) < 3 * 2 ^ 26), div_le_div_iff₀
    (by norm_num) (by norm_num)]
  have q1 : 0 ≤ 2 - dx := by linarith
  have q3 : 0 ≤ dx + 1 := by linarith
  have q := mul_nonneg q1 q3
  have p1 : |(dx ^ 3 - dx) * z4| ≤ 6 * M := by
    apply abs_mul_le _ b4
    rw [abs_le]
    constructor <;> nlinarith [mul_nonneg q q1, mul_nonneg q q3, mul_nonneg q1 (sq_nonneg dx),
      mul_nonneg q3 (sq_nonneg dx), mul_nonneg q3 (sq_nonneg (dx - 1)), sq_nonneg dx]
  have p2 : |(dx ^ 3 + 2 * dx) * z1| ≤ 12 * M := by
    apply abs_mul_le _ b1
    rw [abs_le]
    constructor <;> nlinarith [mul_nonneg q q1, mul_nonneg q q3, mul_nonneg q1 (sq_nonneg dx),
      mul_nonneg q3 (sq_nonneg dx), sq_nonneg dx]
  have p3 : |(dx ^ 3 - dx) * z4 - (dx ^ 3 + 2 * dx) * z1| ≤ 18 * M := by
    rw [abs_le] at *
    constructor <;> linarith [p1.1, p1.2, p2.1, p2.2]
  linarith

theorem row4_some {ni j1 j2 : ℤ} {z : ℤ → ℤ → ℚ} {im i ip ipp j : ℤ}
    (h1 : 1 ≤ im ∧ im ≤ ni) (h2 : 1 ≤ i ∧ i ≤ ni) (h3 : 1 ≤ ip ∧ ip ≤ ni)
    (h4 : 1 ≤ ipp ∧ ipp ≤ ni) (h5 : j1 ≤ j) (h6 : j ≤ j2) :
    row4 ni j1 j2 z im i ip ipp j = some (z im j, z i j, z ip j, z ipp j) := by
  unfold row4
  rw [rd_some h1.1 h1.2 h5 h6, rd_some h2.1 h2.2 h5 h6, rd_some h3.1 h3.2 h5 h6,
    rd_some h4.1 h4.2 h5 h6]
  rfl

/-- The value of the sixteen points. -/
def value16 (z : ℤ → ℤ → ℚ) (im i ip ipp j : ℤ) (dx dy : ℚ) : ℚ :=
  cubic (cubic (z im (j - 1)) (z i (j - 1)) (z ip (j - 1)) (z ipp (j - 1)) dx)
    (cubic (z im j) (z i j) (z ip j) (z ipp j) dx)
    (cubic (z im (j + 1)) (z i (j + 1)) (z ip (j + 1)) (z ipp (j + 1)) dx)
    (cubic (z im (j + 2)) (z i (j + 2)) (z ip (j + 2)) (z ipp (j + 2)) dx) dy

theorem bicubic_some {ni j1 j2 : ℤ} {z : ℤ → ℤ → ℚ} {im i ip ipp j : ℤ} {dx dy : ℚ}
    (h1 : 1 ≤ im ∧ im ≤ ni) (h2 : 1 ≤ i ∧ i ≤ ni) (h3 : 1 ≤ ip ∧ ip ≤ ni)
    (h4 : 1 ≤ ipp ∧ ipp ≤ ni) (h5 : j1 + 1 ≤ j) (h6 : j + 2 ≤ j2) :
    bicubic ni j1 j2 z im i ip ipp j dx dy = some (value16 z im i ip ipp j dx dy) := by
  unfold bicubic
  rw [row4_some h1 h2 h3 h4 (by omega) (by omega), row4_some h1 h2 h3 h4 (by omega) (by omega),
    row4_some h1 h2 h3 h4 (by omega) (by omega), row4_some h1 h2 h3 h4 (by omega) (by omega)]
  rfl

/-- Two applications of the inexact cubic against two applications of the exact one. -/
theorem two_steps {z : ℤ → ℤ → ℚ} {im i ip ipp j : ℤ} {dx dy M K E : ℚ} (hE : 0 ≤ E)
    (rowerr : ∀ (d : ℚ) (z1 z2 z3 z4 N : ℚ), (d = dx ∨ d = dy) → |z1| ≤ N → |z4| ≤ N →
      |cubic z1 z2 z3 z4 d - cubicE z1 z2 z3 z4 d| ≤ E * N)
    (grow : ∀ (d : ℚ) (z1 z2 z3 z4 N : ℚ), (d = dx ∨ d = dy) → 0 ≤ N → |z1| ≤ N → |z2| ≤ N →
      |z3| ≤ N → |z4| ≤ N → |cubicE z1 z2 z3 z4 d| ≤ K * N)
    (hM : 0 ≤ M)
    (hz : ∀ k l, (k = im ∨ k = i ∨ k = ip ∨ k = ipp) → j - 1 ≤ l → l ≤ j + 2 → |z k l| ≤ M) :
    |value16 z im i ip ipp j dx dy -
      cubicE (cubicE (z im (j - 1)) (z i (j - 1)) (z ip (j - 1)) (z ipp (j - 1)) dx)
        (cubicE (z im j) (z i j) (z ip j) (z ipp j) dx)
        (cubicE (z im (j + 1)) (z i (j + 1)) (z ip (j + 1)) (z ipp (j + 1)) dx)
        (cubicE (z im (j + 2)) (z i (j + 2)) (z ip (j + 2)) (z ipp (j + 2)) dx) dy| ≤
      (E * (K + E) + K * E) * M := by
  have row : ∀ l, j - 1 ≤ l → l ≤ j + 2 →
      |cubic (z im l) (z i l) (z ip l) (z ipp l) dx - cubicE (z im l) (z i l) (z ip l) (z ipp l) dx|
        ≤ E * M ∧ |cubicE (z im l) (z i l) (z ip l) (z ipp l) dx| ≤ K * M := by
    intro l h1 h2
    exact ⟨rowerr dx _ _ _ _ _ (Or.inl rfl) (hz _ l (by simp) h1 h2) (hz _ l (by simp) h1 h2),
      grow dx _ _ _ _ _ (Or.inl rfl) hM (hz _ l (by simp) h1 h2) (hz _ l (by simp) h1 h2)
        (hz _ l (by simp) h1 h2) (hz _ l (by simp) h1 h2)⟩
  unfold value16
  obtain ⟨e1, g1⟩ := row (j - 1) (by omega) (by omega)
  obtain ⟨e2, g2⟩ := row j (by omega) (by omega)
  obtain ⟨e3, g3⟩ := row (j + 1) (by omega) (by omega)
  obtain ⟨e4, g4⟩ := row (j + 2) (by omega) (by omega)
  generalize cubic (z im (j - 1)) (z i (j - 1)) (z ip (j - 1)) (z ipp (j - 1)) dx = y1 at *
  generalize cubicE (z im (j - 1)) (z i (j - 1)) (z ip (j - 1)) (z ipp (j - 1)) dx = x1 at *
  generalize cubic (z im j) (z i j) (z ip j) (z ipp j) dx = y2 at *
  generalize cubicE (z im j) (z i j) (z ip j) (z ipp j) dx = x2 at *
  generalize cubic (z im (j + 1)) (z i (j + 1)) (z ip (j + 1)) (z ipp (j + 1)) dx = y3 at *
  generalize cubicE (z im (j + 1)) (z i (j + 1)) (z ip (j + 1)) (z ipp (j + 1)) dx = x3 at *
  generalize cubic (z im (j + 2)) (z i (j + 2)) (z ip (j + 2)) (z ipp (j + 2)) dx = y4 at *
  generalize cubicE (z im (j + 2)) (z i (j + 2)) (z ip (j + 2)) (z ipp (j + 2)) dx = x4 at *
  have hy : ∀ {y x : ℚ}, |y - x| ≤ E * M → |x| ≤ K * M → |y| ≤ (K + E) * M := by
    intro y x h1 h2
    rw [abs_le] at *
    constructor <;> linarith [h1.1, h1.2, h2.1, h2.2]
  have s1 := rowerr dy y1 y2 y3 y4 ((K + E) * M) (Or.inr rfl) (hy e1 g1) (hy e4 g4)
  have s2 := grow dy (y1 - x1) (y2 - x2) (y3 - x3) (y4 - x4) (E * M) (Or.inr rfl)
    (mul_nonneg hE hM) e1 e2 e3 e4
  rw [← cubicE_sub] at s2
  rw [abs_le] at *
  constructor <;> nlinarith [s1.1, s1.2, s2.1, s2.2]

/-- The exact bicubic reproduces a polynomial of degree three in each variable. -/
theorem cubicE_pol2 (c : Fin 4 → Fin 4 → ℚ) (x y dx dy : ℚ) :
    cubicE
      (cubicE (pol2 c (x - 1) (y - 1)) (pol2 c x (y - 1)) (pol2 c (x + 1) (y - 1))
        (pol2 c (x + 2) (y - 1)) dx)
      (cubicE (pol2 c (x - 1) y) (pol2 c x y) (pol2 c (x + 1) y) (pol2 c (x + 2) y) dx)
      (cubicE (pol2 c (x - 1) (y + 1)) (pol2 c x (y + 1)) (pol2 c (x + 1) (y + 1))
        (pol2 c (x + 2) (y + 1)) dx)
      (cubicE (pol2 c (x - 1) (y + 2)) (pol2 c x (y + 2)) (pol2 c (x + 1) (y + 2))
        (pol2 c (x + 2) (y + 2)) dx) dy = pol2 c (x + dx) (y + dy) := by
  unfold pol2
  rw [cubicE_pol, cubicE_pol, cubicE_pol, cubicE_pol]
  have h : ∀ t, pol (fun a => pol (c a) t) (x + dx) =
      pol (fun b => pol (fun a => c a b) (x + dx)) t := by
    intro t; unfold pol; ring
  rw [h, h, h, h, h, cubicE_pol]

/-- **C76, bicubic, reproduction.**  On every grid with four columns and four rows, for every
field that is a polynomial of degree three in each direction with values of at most `M` on the
grid, and every position inside the grid: only the array is read, and the value differs from the
polynomial by at most `2^-20 M`; by at most `2^-24 M` when the position is not in the first or the
last cell of a row or a column. -/
theorem C76_bicubic_partial (ni j1 j2 : ℤ) (z : ℤ → ℤ → ℚ) (px py M : ℚ)
    (c : Fin 4 → Fin 4 → ℚ) (hni : 4 ≤ ni) (hj : j1 + 3 ≤ j2)
    (hz : ∀ i j : ℤ, 1 ≤ i → i ≤ ni → j1 ≤ j → j ≤ j2 → z i j = pol2 c i j ∧ |z i j| ≤ M)
    (hx1 : 1 ≤ px) (hx2 : px ≤ ni) (hy0 : 0 ≤ py) (hy1 : (j1 : ℚ) ≤ py) (hy2 : py ≤ j2) :
    ∃ r, rgdint3nw ni j1 j2 z px py = some r ∧ |r - pol2 c px py| ≤ M / 2 ^ 20 ∧
      (2 ≤ px → px ≤ ni - 1 → (j1 : ℚ) + 1 ≤ py → py ≤ j2 - 1 →
        |r - pol2 c px py| ≤ M / 2 ^ 24) := by
  have hM : 0 ≤ M := le_trans (abs_nonneg _) (hz 1 j1 (by omega) (by omega) (by omega) (by omega)).2
  obtain ⟨f1, f2⟩ := ifix_spec px (by linarith)
  obtain ⟨g1, g2⟩ := ifix_spec py hy0
  have fl : 1 ≤ ifix px := by
    have : (1 : ℚ) < ifix px + 1 := by linarith
    have : (1 : ℤ) < ifix px + 1 := by exact_mod_cast this
    omega
  have fh : ifix px ≤ ni := by
    have : (ifix px : ℚ) ≤ ni := by linarith
    exact_mod_cast this
  have gl : j1 ≤ ifix py := by
    have : (j1 : ℚ) < ifix py + 1 := by linarith
    have : j1 < ifix py + 1 := by exact_mod_cast this
    omega
  have gh : ifix py ≤ j2 := by
    have : (ifix py : ℚ) ≤ j2 := by linarith
    exact_mod_cast this
  unfold rgdint3nw
  simp only
  have hi' : ∃ k, min (ni - 2) (max 2 (ifix px)) = k := ⟨_, rfl⟩
  have hj' : ∃ l, min (j2 - 2) (max (j1 + 1) (ifix py)) = l := ⟨_, rfl⟩
  obtain ⟨i, hi⟩ := hi'
  obtain ⟨j, hjj⟩ := hj'
  rw [hi, hjj]
  refine ⟨_, bicubic_some (by omega) (by omega) (by omega) (by omega) (by omega) (by omega), ?_⟩
  have ex : cubicE (cubicE (z (i - 1) (j - 1)) (z i (j - 1)) (z (i + 1) (j - 1)) (z (i + 2) (j - 1)) (px - i))
        (cubicE (z (i - 1) j) (z i j) (z (i + 1) j) (z (i + 2) j) (px - i))
        (cubicE (z (i - 1) (j + 1)) (z i (j + 1)) (z (i + 1) (j + 1)) (z (i + 2) (j + 1)) (px - i))
        (cubicE (z (i - 1) (j + 2)) (z i (j + 2)) (z (i + 1) (j + 2)) (z (i + 2) (j + 2)) (px - i)) (py - j)
      = pol2 c px py := by
    have e := cubicE_pol2 c i j (px - i) (py - j)
    rw [add_sub_cancel, add_sub_cancel] at e
    rw [← e]
    have hh : ∀ k l : ℤ, 1 ≤ k → k ≤ ni → j1 ≤ l → l ≤ j2 → z k l = pol2 c k l :=
      fun k l a b d e => (hz k l a b d e).1
    rw [hh (i - 1) (j - 1), hh i (j - 1), hh (i + 1) (j - 1), hh (i + 2) (j - 1),
      hh (i - 1) j, hh i j, hh (i + 1) j, hh (i + 2) j,
      hh (i - 1) (j + 1), hh i (j + 1), hh (i + 1) (j + 1), hh (i + 2) (j + 1),
      hh (i - 1) (j + 2), hh i (j + 2), hh (i + 1) (j + 2), hh (i + 2) (j + 2)]
    · push_cast; rfl
    all_goals omega
  have hzz : ∀ k l, (k = i - 1 ∨ k = i ∨ k = i + 1 ∨ k = i + 2) → j - 1 ≤ l → l ≤ j + 2 →
      |z k l| ≤ M := by
    intro k l hk h1 h2
    exact (hz k l (by omega) (by omega) (by omega) (by omega)).2
  have hdx : -1 ≤ px - i ∧ px - i ≤ 2 := by
    have a : i ≤ ifix px + 1 := by omega
    have b : ifix px ≤ i + 1 ∨ (i = ni - 2) := by omega
    have a' : (i : ℚ) ≤ ifix px + 1 := by exact_mod_cast a
    refine ⟨by linarith, ?_⟩
    rcases b with b | b
    · have b' : (ifix px : ℚ) ≤ i + 1 := by exact_mod_cast b
      linarith
    · rw [b]; push_cast; linarith
  have hdy : -1 ≤ py - j ∧ py - j ≤ 2 := by
    have a : j ≤ ifix py + 1 := by omega
    have b : ifix py ≤ j + 1 ∨ (j = j2 - 2) := by omega
    have a' : (j : ℚ) ≤ ifix py + 1 := by exact_mod_cast a
    refine ⟨by linarith, ?_⟩
    rcases b with b | b
    · have b' : (ifix py : ℚ) ≤ j + 1 := by exact_mod_cast b
      linarith
    · rw [b]; push_cast; linarith
  constructor
  · have := two_steps (z := z) (im := i - 1) (i := i) (ip := i + 1) (ipp := i + 2) (j := j)
      (dx := px - i) (dy := py - j) (M := M) (K := 9 / 2) (E := 6 / 2 ^ 26) (by norm_num)
      (fun d z1 z2 z3 z4 N hd b1 b4 => by
        have := err_outer (z2 := z2) (z3 := z3) (dx := d) (by rcases hd with rfl | rfl <;> simp [hdx, hdy])
          (by rcases hd with rfl | rfl <;> simp only [hdx, hdy]) b1 b4
        linarith)
      (fun d z1 z2 z3 z4 N hd hN b1 b2 b3 b4 =>
        cubicE_outer (by rcases hd with rfl | rfl <;> simp only [hdx, hdy])
          (by rcases hd with rfl | rfl <;> simp only [hdx, hdy]) hN b1 b2 b3 b4) hM hzz
    rw [ex] at this
    refine le_trans this ?_
    rw [show M / 2 ^ 20 = 1 / 2 ^ 20 * M by ring]
    exact mul_le_mul_of_nonneg_right (by norm_num) hM
  · intro k1 k2 k3 k4
    have hdx : 0 ≤ px - i ∧ px - i ≤ 1 := by
      have a : 2 ≤ ifix px := by
        have : (2 : ℚ) < ifix px + 1 := by linarith
        have : (2 : ℤ) < ifix px + 1 := by exact_mod_cast this
        omega
      rcases (by omega : ifix px = i ∨ i = ni - 2) with b | b
      · rw [← b]; exact ⟨by linarith, by linarith⟩
      · have : (i : ℚ) ≤ ifix px := by exact_mod_cast (by omega : i ≤ ifix px)
        have b' : (i : ℚ) = ni - 2 := by rw [b]; push_cast; ring
        exact ⟨by linarith, by linarith⟩
    have hdy : 0 ≤ py - j ∧ py - j ≤ 1 := by
      have a : j1 + 1 ≤ ifix py := by
        have : (j1 : ℚ) + 1 < ifix py + 1 := by linarith
        have : j1 + 1 < ifix py + 1 := by exact_mod_cast this
        omega
      rcases (by omega : ifix py = j ∨ j = j2 - 2) with b | b
      · rw [← b]; exact ⟨by linarith, by linarith⟩
      · have : (j : ℚ) ≤ ifix py := by exact_mod_cast (by omega : j ≤ ifix py)
        have b' : (j : ℚ) = j2 - 2 := by rw [b]; push_cast; ring
        exact ⟨by linarith, by linarith⟩
    have := two_steps (z := z) (im := i - 1) (i := i) (ip := i + 1) (ipp := i + 2) (j := j)
      (dx := px - i) (dy := py - j) (M := M) (K := 5 / 4) (E := 1 / 2 ^ 26) (by norm_num)
      (fun d z1 z2 z3 z4 N hd b1 b4 => by
        have := err_inner (z2 := z2) (z3 := z3) (dx := d) (by rcases hd with rfl | rfl <;> simp only [hdx, hdy])
          (by rcases hd with rfl | rfl <;> simp only [hdx, hdy]) b1 b4
        linarith)
      (fun d z1 z2 z3 z4 N hd hN b1 b2 b3 b4 =>
        cubicE_inner (by rcases hd with rfl | rfl <;> simp only [hdx, hdy])
          (by rcases hd with rfl | rfl <;> simp only [hdx, hdy]) hN b1 b2 b3 b4) hM hzz
    rw [ex] at this
    refine le_trans this ?_
    rw [show M / 2 ^ 24 = 1 / 2 ^ 24 * M by ring]
    exact mul_le_mul_of_nonneg_right (by norm_num) hM

/-- **C76, bicubic, interior grid points.**  At a grid point that is not on the border nor next to
the last border the result is exactly the value of the point, for any field. -/
theorem C76_bicubic_point (ni j1 j2 : ℤ) (z : ℤ → ℤ → ℚ) (i j : ℤ) (h1 : 2 ≤ i) (h2 : i ≤ ni - 2)
    (h3 : j1 + 1 ≤ j) (h4 : j ≤ j2 - 2) :
    rgdint3nw ni j1 j2 z (i : ℚ) (j : ℚ) = some (z i j) := by
  unfold rgdint3nw
  simp only [ifix_int]
  rw [show min (ni - 2) (max 2 i) = i by omega, show min (j2 - 2) (max (j1 + 1) j) = j by omega,
    bicubic_some (by omega) (by omega) (by omega) (by omega) (by omega) (by omega)]
  unfold value16 cubic cubicWith
  congr 1
  ring

/-- **C76, bicubic, a constant field.**  The exact value on a field that is constant: each
direction multiplies by `1 - 2^-26 d` where `d` is the distance from the second of the four
points. -/
theorem C76_bicubic_constant (ni j1 j2 : ℤ) (px py v : ℚ) (hni : 4 ≤ ni) (hj : j1 + 3 ≤ j2) :
    ∃ i j : ℤ, 2 ≤ i ∧ i ≤ ni - 2 ∧ j1 + 1 ≤ j ∧ j ≤ j2 - 2 ∧
      rgdint3nw ni j1 j2 (fun _ _ => v) px py =
        some (v * (1 - (px - i) / 2 ^ 26) * (1 - (py - j) / 2 ^ 26)) := by
  refine ⟨min (ni - 2) (max 2 (ifix px)), min (j2 - 2) (max (j1 + 1) (ifix py)), by omega, by omega,
    by omega, by omega, ?_⟩
  unfold rgdint3nw
  simp only
  rw [bicubic_some (by omega) (by omega) (by omega) (by omega) (by omega) (by omega)]
  unfold value16 cubic cubicWith c6 c3
  congr 1
  ring

/-- **C76, the last grid point.**  On the constant field 1, the value computed at the last point
of the grid is nearer to the single precision number below 1, which is `1 - 2^-24`, than to 1: the
constant is not reproduced. -/
theorem C76_corner_witness :
    ∃ r, rgdint3nw 4 1 4 (fun _ _ => 1) 4 4 = some r ∧ |r - (1 - 1 / 2 ^ 24)| < |r - 1| := by
  refine ⟨(1 - 2 / 2 ^ 26) * (1 - 2 / 2 ^ 26), by decide +kernel, by decide +kernel⟩

/-- **C76, three columns.**  With only three columns the bicubic kernel reads column 0. -/
theorem C76_narrow_witness : rgdint3nw 3 1 4 (fun _ _ => 1) 2 2 = none := by decide +kernel

/-- A field of degree three. -/
example : (rgdint3nw 5 1 5 (fun i j => i * i * i + j * j) (5 / 2) (7 / 2)).map
    (fun r => decide (|r - (125 / 8 + 49 / 4)| < 1 / 2 ^ 16)) = some true := by
  decide +kernel

end Verif.EzInterp
