/-
C78: interpolation on a grid with irregular axes.

The bilinear kernel is that of a regular grid.  The bicubic kernel evaluates the polynomial of
Lagrange in the form of Newton, with the inverse distances prepared by `ez_nwtncof`: it reproduces
every polynomial of degree three in each coordinate, in the cells that are not the first or the
last of their row or column.  The kernel that wraps is compared with the plain kernel on widened
axes.  The code departs from this in four places, each with a witness.
-/
import Verif.Props.EzWrap

namespace Verif.EzInterp

/-! ### The form of Newton -/

theorem inv_mul_of {a b d : ℚ} (hd : d ≠ 0) (h : a = d * b) : 1 / d * a = b := by
  rw [h]; field_simp

/-- The form of Newton with the right inverse distances reproduces a cubic. -/
theorem newton_pol (c : Fin 4 → ℚ) (x x1 x2 x3 x4 : ℚ) (h12 : x1 < x2) (h23 : x2 < x3)
    (h34 : x3 < x4) :
    newton (inv4 x1 x2 x3 x4) (pol c x1) (pol c x2) (pol c x3) (pol c x4) x x1 x2 x3 = pol c x := by
  have D : ∀ a b, a < b → 1 / (b - a) * (pol c b - pol c a) =
      c 1 + c 2 * (a + b) + c 3 * (a ^ 2 + a * b + b ^ 2) := by
    intro a b h
    apply inv_mul_of (by linarith)
    unfold pol; ring
  unfold newton inv4
  simp only
  rw [D x1 x2 h12, D x2 x3 h23, D x3 x4 h34]
  have e1 : 1 / (x3 - x1) * (c 1 + c 2 * (x2 + x3) + c 3 * (x2 ^ 2 + x2 * x3 + x3 ^ 2) -
      (c 1 + c 2 * (x1 + x2) + c 3 * (x1 ^ 2 + x1 * x2 + x2 ^ 2))) = c 2 + c 3 * (x1 + x2 + x3) := by
    apply inv_mul_of (by linarith); ring
  have e2 : 1 / (x4 - x2) * (c 1 + c 2 * (x3 + x4) + c 3 * (x3 ^ 2 + x3 * x4 + x4 ^ 2) -
      (c 1 + c 2 * (x2 + x3) + c 3 * (x2 ^ 2 + x2 * x3 + x3 ^ 2))) = c 2 + c 3 * (x2 + x3 + x4) := by
    apply inv_mul_of (by linarith); ring
  rw [e1, e2]
  have e3 : 1 / (x4 - x1) * (c 2 + c 3 * (x2 + x3 + x4) - (c 2 + c 3 * (x1 + x2 + x3))) = c 3 := by
    apply inv_mul_of (by linarith); ring
  rw [e3]
  unfold pol; ring

/-- At the second and the third point the form of Newton gives the value, for any values. -/
theorem newton_at (x1 x2 x3 x4 z1 z2 z3 z4 : ℚ) (h12 : x1 < x2) (h23 : x2 < x3) :
    newton (inv4 x1 x2 x3 x4) z1 z2 z3 z4 x2 x1 x2 x3 = z2 ∧
    newton (inv4 x1 x2 x3 x4) z1 z2 z3 z4 x3 x1 x2 x3 = z3 := by
  have a : x2 - x1 ≠ 0 := by linarith
  have b : x3 - x2 ≠ 0 := by linarith
  have d : x3 - x1 ≠ 0 := by linarith
  unfold newton inv4
  simp only [sub_self, mul_zero, zero_mul, add_zero]
  constructor
  · field_simp; ring
  · field_simp; ring

theorem rd1_some {lo hi : ℤ} {a : ℤ → ℚ} {i : ℤ} (h1 : lo ≤ i) (h2 : i ≤ hi) :
    rd1 lo hi a i = some (a i) := by unfold rd1; rw [if_pos ⟨h1, h2⟩]

/-- The value of the sixteen points. -/
def newton16 (ay : ℤ → ℚ) (cx cy : Inv) (z : ℤ → ℤ → ℚ) (im i ip ipp j : ℤ) (x y x1 x2 x3 : ℚ) :
    ℚ :=
  newton cy (newton cx (z im (j - 1)) (z i (j - 1)) (z ip (j - 1)) (z ipp (j - 1)) x x1 x2 x3)
    (newton cx (z im j) (z i j) (z ip j) (z ipp j) x x1 x2 x3)
    (newton cx (z im (j + 1)) (z i (j + 1)) (z ip (j + 1)) (z ipp (j + 1)) x x1 x2 x3)
    (newton cx (z im (j + 2)) (z i (j + 2)) (z ip (j + 2)) (z ipp (j + 2)) x x1 x2 x3)
    y (ay (j - 1)) (ay j) (ay (j + 1))

theorem binewton_some {ni j1 j2 : ℤ} {ay : ℤ → ℚ} {cx cy : Inv} {z : ℤ → ℤ → ℚ}
    {im i ip ipp j : ℤ} {x1 x2 x3 px py : ℚ}
    (h1 : 1 ≤ im ∧ im ≤ ni) (h2 : 1 ≤ i ∧ i ≤ ni) (h3 : 1 ≤ ip ∧ ip ≤ ni)
    (h4 : 1 ≤ ipp ∧ ipp ≤ ni) (h5 : j1 + 1 ≤ j) (h6 : j + 2 ≤ j2) :
    binewton ni j1 j2 ay cx cy z im i ip ipp j x1 x2 x3 px py =
      some (newton16 ay cx cy z im i ip ipp j (x2 + (x3 - x2) * (px - i))
        (ay j + (ay (j + 1) - ay j) * (py - j)) x1 x2 x3) := by
  unfold binewton
  simp only
  rw [rd1_some (by omega) (by omega), rd1_some (by omega) (by omega),
    rd1_some (by omega) (by omega),
    row4_some h1 h2 h3 h4 (by omega) (by omega), row4_some h1 h2 h3 h4 (by omega) (by omega),
    row4_some h1 h2 h3 h4 (by omega) (by omega), row4_some h1 h2 h3 h4 (by omega) (by omega)]
  rfl

theorem irgdint3nw_some (ni j1 j2 : ℤ) (ax ay : ℤ → ℚ) (z : ℤ → ℤ → ℚ) (px py : ℚ) (i j : ℤ)
    (hi : min (ni - 2) (max 2 (ifix px)) = i) (hj : min (j2 - 2) (max (j1 + 1) (ifix py)) = j)
    (hni : 4 ≤ ni) (hjj : j1 + 3 ≤ j2) :
    irgdint3nw ni j1 j2 ax ay z px py =
      some (newton16 ay (inv4 (ax (i - 1)) (ax i) (ax (i + 1)) (ax (i + 2)))
        (inv4 (ay (j - 1)) (ay j) (ay (j + 1)) (ay (j + 2))) z (i - 1) i (i + 1) (i + 2) j
        (ax i + (ax (i + 1) - ax i) * (px - i)) (ay j + (ay (j + 1) - ay j) * (py - j))
        (ax (i - 1)) (ax i) (ax (i + 1))) := by
  unfold irgdint3nw
  simp only [hi, hj]
  rw [rd1_some (by omega) (by omega), rd1_some (by omega) (by omega),
    rd1_some (by omega) (by omega), rd1_some (by omega) (by omega),
    rd1_some (by omega) (by omega)]
  simp only [bind, Option.bind]
  rw [binewton_some (by omega) (by omega) (by omega) (by omega) (by omega) (by omega)]
  unfold nwtx nwty
  rw [if_neg (by omega), if_neg (by omega), if_neg (by omega), if_neg (by omega),
    if_neg (by omega), if_pos (by omega), if_pos (by omega)]

/-- **C78, bicubic, reproduction.**  On every grid with four columns and four rows and increasing
axes, for every field that is a polynomial of degree three in each coordinate, and every position
in a cell that is not the first or the last: the value is that of the polynomial at the
coordinates of the position. -/
theorem C78_newton_partial (ni j1 j2 : ℤ) (ax ay : ℤ → ℚ) (z : ℤ → ℤ → ℚ)
    (c : Fin 4 → Fin 4 → ℚ) (px py : ℚ) (i j : ℤ)
    (hax : ∀ k, 1 ≤ k → k < ni → ax k < ax (k + 1)) (hay : ∀ l, j1 ≤ l → l < j2 → ay l < ay (l + 1))
    (hz : ∀ k l : ℤ, 1 ≤ k → k ≤ ni → j1 ≤ l → l ≤ j2 → z k l = pol2 c (ax k) (ay l))
    (hi1 : 2 ≤ i) (hi2 : i ≤ ni - 2) (hj0 : 0 ≤ j) (hj1 : j1 + 1 ≤ j) (hj2 : j ≤ j2 - 2)
    (hx1 : (i : ℚ) ≤ px) (hx2 : px ≤ i + 1) (hy1 : (j : ℚ) ≤ py) (hy2 : py ≤ j + 1) :
    irgdint3nw ni j1 j2 ax ay z px py =
      some (pol2 c (ax i + (ax (i + 1) - ax i) * (px - i))
        (ay j + (ay (j + 1) - ay j) * (py - j))) := by
  have cell : ∀ (n m : ℤ) (q : ℚ) (lo hi : ℤ), 0 ≤ n → (n : ℚ) ≤ q → q ≤ n + 1 → lo ≤ n → n ≤ hi →
      min hi (max lo (ifix q)) = m → (m = n ∨ (m = n + 1 ∧ q = n + 1)) := by
    intro n m q lo hi h0 h1 h2 h3 h4 h5
    have h0' : (0 : ℚ) ≤ n := by exact_mod_cast h0
    obtain ⟨f1, f2⟩ := ifix_spec q (by linarith)
    have a1 : n ≤ ifix q := by
      have : (n : ℚ) < ifix q + 1 := by linarith
      have : n < ifix q + 1 := by exact_mod_cast this
      omega
    have a2 : ifix q ≤ n + 1 := by
      have : (ifix q : ℚ) ≤ (n + 1 : ℤ) := by push_cast; linarith
      exact_mod_cast this
    by_cases hm : m = n
    · exact Or.inl hm
    · have e : ifix q = n + 1 := by omega
      refine Or.inr ⟨by omega, le_antisymm h2 ?_⟩
      rw [e] at f1; push_cast at f1; exact f1
  obtain ⟨i', hi'⟩ : ∃ k, min (ni - 2) (max 2 (ifix px)) = k := ⟨_, rfl⟩
  obtain ⟨j', hj'⟩ : ∃ l, min (j2 - 2) (max (j1 + 1) (ifix py)) = l := ⟨_, rfl⟩
  have ci := cell i i' px 2 (ni - 2) (by omega) hx1 hx2 hi1 hi2 hi'
  have cj := cell j j' py (j1 + 1) (j2 - 2) hj0 hy1 hy2 hj1 hj2 hj'
  rw [irgdint3nw_some ni j1 j2 ax ay z px py i' j' hi' hj' (by omega) (by omega)]
  have ex : ax i' + (ax (i' + 1) - ax i') * (px - i') = ax i + (ax (i + 1) - ax i) * (px - i) := by
    rcases ci with rfl | ⟨rfl, e⟩
    · rfl
    · rw [e]; push_cast; ring
  have ey : ay j' + (ay (j' + 1) - ay j') * (py - j') = ay j + (ay (j + 1) - ay j) * (py - j) := by
    rcases cj with rfl | ⟨rfl, e⟩
    · rfl
    · rw [e]; push_cast; ring
  rw [ex, ey]
  generalize ax i + (ax (i + 1) - ax i) * (px - i) = x
  generalize ay j + (ay (j + 1) - ay j) * (py - j) = y
  have bi : 2 ≤ i' ∧ i' ≤ ni - 2 := by omega
  have bj : j1 + 1 ≤ j' ∧ j' ≤ j2 - 2 := by omega
  have o1 : ax (i' - 1) < ax i' := by
    have := hax (i' - 1) (by omega) (by omega); rwa [sub_add_cancel] at this
  have o2 : ax i' < ax (i' + 1) := hax i' (by omega) (by omega)
  have o3 : ax (i' + 1) < ax (i' + 2) := by
    have := hax (i' + 1) (by omega) (by omega); rwa [show i' + 1 + 1 = i' + 2 by omega] at this
  have p1 : ay (j' - 1) < ay j' := by
    have := hay (j' - 1) (by omega) (by omega); rwa [sub_add_cancel] at this
  have p2 : ay j' < ay (j' + 1) := hay j' (by omega) (by omega)
  have p3 : ay (j' + 1) < ay (j' + 2) := by
    have := hay (j' + 1) (by omega) (by omega); rwa [show j' + 1 + 1 = j' + 2 by omega] at this
  unfold newton16
  have rows : ∀ l, j1 ≤ l → l ≤ j2 →
      newton (inv4 (ax (i' - 1)) (ax i') (ax (i' + 1)) (ax (i' + 2))) (z (i' - 1) l) (z i' l)
        (z (i' + 1) l) (z (i' + 2) l) x (ax (i' - 1)) (ax i') (ax (i' + 1)) =
      pol (fun b => pol (fun a => c a b) x) (ay l) := by
    intro l h1 h2
    rw [hz (i' - 1) l (by omega) (by omega) h1 h2, hz i' l (by omega) (by omega) h1 h2,
      hz (i' + 1) l (by omega) (by omega) h1 h2, hz (i' + 2) l (by omega) (by omega) h1 h2]
    unfold pol2
    rw [newton_pol _ _ _ _ _ _ o1 o2 o3]
    unfold pol; ring
  rw [rows _ (by omega) (by omega), rows _ (by omega) (by omega), rows _ (by omega) (by omega),
    rows _ (by omega) (by omega), newton_pol _ _ _ _ _ _ p1 p2 p3]
  congr 1
  unfold pol2 pol; ring

/-- The cube of the coordinate, midway between the coordinates 1 and 3 of the axis 0, 1, 3, 4, 5. -/
example : irgdint3nw 5 1 5 (fun k => if k ≤ 2 then k - 1 else k) (fun l => l * l)
    (fun k l => (if k ≤ 2 then k - 1 else k) ^ 3 + l * l) (5 / 2) (5 / 2) = some (8 + 13 / 2) := by
  decide +kernel

/-- **C78, bicubic, grid points.**  At every grid point that is not on the border the result is the
value of the point, for any field. -/
theorem C78_newton_point (ni j1 j2 : ℤ) (ax ay : ℤ → ℚ) (z : ℤ → ℤ → ℚ) (i j : ℤ)
    (hax : ∀ k, 1 ≤ k → k < ni → ax k < ax (k + 1)) (hay : ∀ l, j1 ≤ l → l < j2 → ay l < ay (l + 1))
    (hi1 : 2 ≤ i) (hi2 : i ≤ ni - 1) (hj1 : j1 + 1 ≤ j) (hj2 : j ≤ j2 - 1)
    (hni : 4 ≤ ni) (hj : j1 + 3 ≤ j2) :
    irgdint3nw ni j1 j2 ax ay z (i : ℚ) (j : ℚ) = some (z i j) := by
  obtain ⟨i', hi'⟩ : ∃ k, min (ni - 2) (max 2 (ifix (i : ℚ))) = k := ⟨_, rfl⟩
  obtain ⟨j', hj'⟩ : ∃ l, min (j2 - 2) (max (j1 + 1) (ifix (j : ℚ))) = l := ⟨_, rfl⟩
  rw [irgdint3nw_some ni j1 j2 ax ay z _ _ i' j' hi' hj' hni hj]
  rw [ifix_int] at hi' hj'
  have o1 : ax (i' - 1) < ax i' := by
    have := hax (i' - 1) (by omega) (by omega); rwa [sub_add_cancel] at this
  have o2 : ax i' < ax (i' + 1) := hax i' (by omega) (by omega)
  have p1 : ay (j' - 1) < ay j' := by
    have := hay (j' - 1) (by omega) (by omega); rwa [sub_add_cancel] at this
  have p2 : ay j' < ay (j' + 1) := hay j' (by omega) (by omega)
  unfold newton16
  have row : ∀ l, newton (inv4 (ax (i' - 1)) (ax i') (ax (i' + 1)) (ax (i' + 2))) (z (i' - 1) l)
      (z i' l) (z (i' + 1) l) (z (i' + 2) l) (ax i' + (ax (i' + 1) - ax i') * ((i : ℚ) - i'))
      (ax (i' - 1)) (ax i') (ax (i' + 1)) = z i l := by
    intro l
    rcases (by omega : i = i' ∨ i = i' + 1) with rfl | rfl
    · rw [sub_self, mul_zero, add_zero]
      exact (newton_at _ _ _ _ _ _ _ _ o1 o2).1
    · rw [show ax i' + (ax (i' + 1) - ax i') * (((i' + 1 : ℤ) : ℚ) - i') = ax (i' + 1) by
        push_cast; ring]
      exact (newton_at _ _ _ _ _ _ _ _ o1 o2).2
  simp only [row]
  congr 1
  rcases (by omega : j = j' ∨ j = j' + 1) with rfl | rfl
  · rw [sub_self, mul_zero, add_zero]
    exact (newton_at _ _ _ _ _ _ _ _ p1 p2).1
  · rw [show ay j' + (ay (j' + 1) - ay j') * (((j' + 1 : ℤ) : ℚ) - j') = ay (j' + 1) by
      push_cast; ring]
    exact (newton_at _ _ _ _ _ _ _ _ p1 p2).2

/-- An irregular axis: 0, 1, 3, 4, 5, … -/
def gap (k : ℤ) : ℚ := if k ≤ 2 then k - 1 else k

/-- **C78, the first column.**  At the first column of an irregular axis the coordinate is taken
from the spacing of the next cell: for the field equal to the coordinate, the value at the first
point, of coordinate 0, is -1. -/
theorem C78_edge_witness :
    gap 1 = 0 ∧ irgdint3nw 5 1 5 gap (fun l => l) (fun k _ => gap k) 1 3 = some (-1) := by
  decide +kernel

/-! ### The bilinear kernel -/

theorem quo_self {x d t : ℚ} (hd : d ≠ 0) : quo (x + d * t - x) d = some t := by
  unfold quo
  rw [if_neg hd]
  congr 1
  field_simp
  ring

/-- **C78, bilinear.**  With increasing axes the kernel for irregular axes gives, at every
position, the value of the kernel for regular ones: it is linear in the fractional index. -/
theorem C78_bilinear (ni nj : ℤ) (ax ay : ℤ → ℚ) (z : ℤ → ℤ → ℚ) (px py : ℚ) (hni : 2 ≤ ni)
    (hnj : 2 ≤ nj) (hax : ∀ k, 1 ≤ k → k < ni → ax k < ax (k + 1))
    (hay : ∀ l, 1 ≤ l → l < nj → ay l < ay (l + 1)) :
    irgdint1nw ni nj ax ay z px py = rgdint1nw ni 1 nj z px py := by
  unfold irgdint1nw rgdint1nw
  simp only
  generalize hi : min (ni - 1) (max 1 (ifix px)) = i
  generalize hj : min (nj - 1) (max 1 (ifix py)) = j
  have h1 := hax i (by omega) (by omega)
  have h2 := hay j (by omega) (by omega)
  rw [rd1_some (by omega) (by omega), rd1_some (by omega) (by omega),
    rd1_some (by omega) (by omega), rd1_some (by omega) (by omega)]
  simp only [bind, Option.bind]
  rw [quo_self (by linarith), quo_self (by linarith)]

/-- **C78, bilinear, wrapping.**  With increasing axes, a second coordinate that is not zero, and
at or above the second row, the kernel that wraps gives the value of the kernel for regular
axes. -/
theorem C78_bilinear_wrap_partial (ni j1 j2 : ℤ) (ax ay : ℤ → ℚ) (z : ℤ → ℤ → ℚ) (px py : ℚ)
    (hni : 2 ≤ ni) (hj : j1 + 2 ≤ j2) (hj0 : 0 ≤ j1)
    (hax : ∀ k, 1 ≤ k → k < ni → ax k < ax (k + 1))
    (hay : ∀ l, j1 ≤ l → l < j2 → ay l < ay (l + 1)) (h2 : ax 2 ≠ 0)
    (hpy : (j1 : ℚ) + 1 ≤ py) :
    irgdint1w ni j1 j2 2 ax ay z px py = rgdint1w ni j1 j2 2 z px py := by
  have hj0' : (0 : ℚ) ≤ j1 := by exact_mod_cast hj0
  have hf : j1 + 1 ≤ ifix py := by
    obtain ⟨f1, f2⟩ := ifix_spec py (by linarith)
    have : (j1 : ℚ) + 1 < ifix py + 1 := by linarith
    have : j1 + 1 < ifix py + 1 := by exact_mod_cast this
    omega
  unfold irgdint1w rgdint1w
  simp only
  rw [show min (j2 - 1) (max j1 (ifix py)) = min (j2 - 1) (max (j1 + 1) (ifix py)) by omega]
  generalize hi : min (ni - 2 + 2) (max 1 (ifix px)) = i
  generalize hjj : min (j2 - 1) (max (j1 + 1) (ifix py)) = j
  rw [if_neg (by omega : ¬ j < 0)]
  have hy := hay j (by omega) (by omega)
  have r1 : rd1 1 ni ax i = some (ax i) := rd1_some (by omega) (by omega)
  have r3 : rd1 j1 j2 ay j = some (ay j) := rd1_some (by omega) (by omega)
  have r4 : rd1 j1 j2 ay (j + 1) = some (ay (j + 1)) := rd1_some (by omega) (by omega)
  by_cases hs : i = ni
  · have e : (0 < (2 : ℤ) ∧ i = ni - 2 + 2) := ⟨by omega, by omega⟩
    have r5 : nextX ni 2 ax i = some (ax 2 + ax ni) := by
      unfold nextX
      rw [if_pos e, rd1_some (by omega) (by omega), rd1_some (by omega) (by omega)]
      rfl
    rw [if_pos e, r1, r3, r4, r5]
    simp only [bind, Option.bind]
    rw [hs, show ax 2 + ax ni - ax ni = ax 2 by ring, quo_self h2, quo_self (by linarith)]
  · have e : ¬ (0 < (2 : ℤ) ∧ i = ni - 2 + 2) := by omega
    have hx := hax i (by omega) (by omega)
    have r5 : nextX ni 2 ax i = some (ax (i + 1)) := by
      unfold nextX
      rw [if_neg e, rd1_some (by omega) (by omega)]
    rw [if_neg e, r1, r3, r4, r5]
    simp only [bind, Option.bind]
    rw [quo_self (by linarith), quo_self (by linarith)]

/-- **C78, bilinear, the first row.**  On a wrapped grid whose first row has the number one, at any
grid point of the first row the value is the extrapolation of the next two rows, whatever the
first row holds. -/
theorem C78_first_row (ni j2 : ℤ) (ax ay : ℤ → ℚ) (z : ℤ → ℤ → ℚ) (i : ℤ) (hj : 3 ≤ j2)
    (hax : ∀ k, 1 ≤ k → k < ni → ax k < ax (k + 1))
    (hay : ∀ l, 1 ≤ l → l < j2 → ay l < ay (l + 1)) (h1 : 1 ≤ i) (h2 : i < ni) :
    irgdint1w ni 1 j2 2 ax ay z (i : ℚ) 1 = some (2 * z i 2 - z i 3) := by
  unfold irgdint1w
  simp only [ifix_int]
  have e1 : ifix 1 = 1 := by decide +kernel
  rw [show min (ni - 2 + 2) (max 1 i) = i by omega, e1,
    show min (j2 - 1) (max (1 + 1) 1) = (2 : ℤ) by omega, if_neg (by omega : ¬ (2 : ℤ) < 0)]
  have e : ¬ (0 < (2 : ℤ) ∧ i = ni - 2 + 2) := by omega
  have hx := hax i (by omega) (by omega)
  have hy := hay 2 (by omega) (by omega)
  have r5 : nextX ni 2 ax i = some (ax (i + 1)) := by
    unfold nextX
    rw [if_neg e, rd1_some (by omega) (by omega)]
  rw [if_neg e, r5, rd1_some (by omega) (by omega), rd1_some (by omega) (by omega), rd1_some (by omega) (by omega)]
  simp only [bind, Option.bind]
  rw [quo_self (by linarith), quo_self (by linarith)]
  dsimp only
  rw [bilin_some (by omega) (by omega) (by omega) (by omega) (by omega) (by omega)]
  unfold zlin
  congr 1
  push_cast
  norm_num
  ring

/-- **C78, bilinear, a second coordinate of zero.**  On a wrapped axis -90, 0, 90, 180 a position
between the last column and the first is a division of zero by zero. -/
theorem C78_zero_witness :
    irgdint1w 4 1 4 2 (fun k => 90 * (k - 2)) (fun l => l) (fun _ _ => 1) (9 / 2) 2 = none := by
  decide +kernel

/-! ### The bicubic kernel that wraps -/

/-- The axis of a global grid, continued by whole turns: `n` columns per turn, shifted by one. -/
def wide (n : ℤ) (ax : ℤ → ℚ) (k : ℤ) : ℚ := ax ((k - 2) % n + 1) + 360 * ((k - 2) / n : ℤ)

theorem wide_mid {n k : ℤ} {ax : ℤ → ℚ} (h0 : 2 ≤ k) (h1 : k ≤ n + 1) :
    wide n ax k = ax (k - 1) := by
  unfold wide
  rw [emod_zero (by omega) (by omega), Int.ediv_eq_zero_of_lt (by omega) (by omega),
    show k - 2 + 1 = k - 1 by omega]
  simp

theorem wide_high {n k : ℤ} {ax : ℤ → ℚ} (h0 : n + 2 ≤ k) (h1 : k ≤ 2 * n + 1) :
    wide n ax k = ax (k - 1 - n) + 360 := by
  unfold wide
  have hd : (k - 2) / n = 1 := by
    rw [show k - 2 = (k - 2 - n) + n by omega, Int.add_ediv_of_dvd_right ⟨1, by simp⟩,
      Int.ediv_eq_zero_of_lt (by omega) (by omega), Int.ediv_self (by omega)]; rfl
  rw [emod_one (by omega) (by omega), hd, show k - 2 - n + 1 = k - 1 - n by omega]
  simp

theorem wide_low {n : ℤ} {ax : ℤ → ℚ} (h0 : 1 ≤ n) : wide n ax 1 = ax n - 360 := by
  unfold wide
  have hd : (1 - 2) / n = -1 := by
    rw [show (1 : ℤ) - 2 = (n - 1) + (-1) * n by ring, Int.add_mul_ediv_right _ _ (by omega),
      Int.ediv_eq_zero_of_lt (by omega) (by omega)]; rfl
  rw [emod_neg (by omega) (by omega), hd, show 1 - 2 + n + 1 = n by omega]
  push_cast
  ring

/-- The kernel that wraps, column by column. -/
theorem irgdint3w_some {ni j1 j2 wrap : ℤ} {ax ay : ℤ → ℚ} {z : ℤ → ℤ → ℚ} {px py : ℚ}
    {i j im ip ipp : ℤ} {x1 x2 x3 x4 : ℚ}
    (hi : min (ni - 2 + wrap) (max 1 (max (2 - wrap) (ifix px))) = i)
    (hj : min (j2 - 2) (max (j1 + 1) (ifix py)) = j) (hjj : j1 + 3 ≤ j2)
    (hc : cols3iw ni wrap ax i = some (im, ip, ipp, x1, x2, x3))
    (hn : nwtx ni wrap ax i = inv4 x1 x2 x3 x4)
    (h1 : 1 ≤ im ∧ im ≤ ni) (h2 : 1 ≤ i ∧ i ≤ ni) (h3 : 1 ≤ ip ∧ ip ≤ ni)
    (h4 : 1 ≤ ipp ∧ ipp ≤ ni) :
    irgdint3w ni j1 j2 wrap ax ay z px py =
      some (newton16 ay (inv4 x1 x2 x3 x4)
        (inv4 (ay (j - 1)) (ay j) (ay (j + 1)) (ay (j + 2))) z im i ip ipp j
        (x2 + (x3 - x2) * (px - i)) (ay j + (ay (j + 1) - ay j) * (py - j)) x1 x2 x3) := by
  unfold irgdint3w
  simp only [hi, hj]
  rw [hc, rd1_some (by omega) (by omega)]
  simp only [bind, Option.bind]
  rw [binewton_some h1 h2 h3 h4 (by omega) (by omega), hn]
  unfold nwty
  rw [if_pos (by omega)]

/-- **C78, bicubic, extension 2.**  With a first coordinate of zero, or away from the first cell,
the kernel that wraps gives the value of the plain kernel on the axis and the array widened with
copies of columns, one turn away. -/
theorem C78_wrap_partial (ni j1 j2 : ℤ) (ax ay : ℤ → ℚ) (z : ℤ → ℤ → ℚ) (px py : ℚ) (hni : 3 ≤ ni)
    (hj : j1 + 3 ≤ j2) (h1 : ax 1 = 0 ∨ 2 ≤ px) :
    irgdint3w ni j1 j2 2 ax ay z px py =
      irgdint3nw (ni + 3) j1 j2 (wide ni ax) ay (fun k l => z ((k - 2) % ni + 1) l) (px + 1) py := by
  have hs := ifix_succ px
  obtain ⟨i, hi⟩ : ∃ k, min (ni - 2 + 2) (max 1 (max (2 - 2) (ifix px))) = k := ⟨_, rfl⟩
  obtain ⟨j, hjj⟩ : ∃ l, min (j2 - 2) (max (j1 + 1) (ifix py)) = l := ⟨_, rfl⟩
  rw [irgdint3nw_some (ni + 3) j1 j2 _ ay _ (px + 1) py (i + 1) j (by omega) hjj (by omega) hj]
  have e : ∀ k, (k - 2) % ni + 1 = turn ni (k - 1) := by
    intro k; unfold turn; rw [show k - 1 - 1 = k - 2 by omega]
  have epx : px + 1 - ((i + 1 : ℤ) : ℚ) = px - i := by push_cast; ring
  have hone : i = 1 → ax 1 = 0 := by
    intro h
    rcases h1 with h1 | h1
    · exact h1
    · obtain ⟨f1, f2⟩ := ifix_spec px (by linarith)
      have : (2 : ℚ) < ifix px + 1 := by linarith
      have : (2 : ℤ) < ifix px + 1 := by exact_mod_cast this
      omega
  have k0 : i + 1 - 1 = i := by omega
  have k2 : i + 1 + 1 - 1 = i + 1 := by omega
  have k3 : i + 1 + 2 - 1 = i + 2 := by omega
  rcases (by omega : i = 1 ∨ (2 ≤ i ∧ i ≤ ni - 2) ∨ (i = ni - 1 ∧ i ≠ 1) ∨ (i = ni ∧ i ≠ 1)) with h | h | h | h
  · have w0 : wide ni ax (i + 1 - 1) = ax ni - 360 := by
      rw [show i + 1 - 1 = 1 by omega, wide_low (by omega)]
    have w1 : wide ni ax (i + 1) = ax 1 := by
      rw [wide_mid (by omega) (by omega), show i + 1 - 1 = 1 by omega]
    have w2 : wide ni ax (i + 1 + 1) = ax 2 := by
      rw [wide_mid (by omega) (by omega), show i + 1 + 1 - 1 = 2 by omega]
    have w3 : wide ni ax (i + 1 + 2) = ax 3 := by
      rw [wide_mid (by omega) (by omega), show i + 1 + 2 - 1 = 3 by omega]
    rw [irgdint3w_some (i := i) (j := j) (im := ni) (ip := 2) (ipp := 3) (x1 := ax ni - 360)
      (x2 := ax 1) (x3 := ax 2) (x4 := ax 3) hi hjj hj ?_ ?_ (by omega) (by omega) (by omega)
      (by omega), w0, w1, w2, w3, epx]
    · unfold newton16
      simp only [e, k0, k2, k3]
      rw [turn_mid (n := ni) (k := i) (by omega) (by omega),
        turn_low (n := ni) (k := i - 1) (by omega) (by omega),
        turn_mid (n := ni) (k := i + 1) (by omega) (by omega),
        turn_mid (n := ni) (k := i + 2) (by omega) (by omega),
        show i - 1 + ni = ni by omega, show i + 1 = 2 by omega, show i + 2 = 3 by omega]
    · unfold cols3iw
      rw [if_neg (by omega), if_neg (by omega), if_pos (by omega), rd1_some (by omega) (by omega),
        rd1_some (by omega) (by omega), rd1_some (by omega) (by omega)]
      rfl
    · unfold nwtx
      rw [if_neg (by omega), if_neg (by omega), if_pos (by omega),
        show ax 1 - (360 - ax ni) = ax ni - 360 by rw [hone h]; ring]
  · have w0 : wide ni ax (i + 1 - 1) = ax (i - 1) := by
      rw [wide_mid (by omega) (by omega), k0]
    have w1 : wide ni ax (i + 1) = ax i := by rw [wide_mid (by omega) (by omega), k0]
    have w2 : wide ni ax (i + 1 + 1) = ax (i + 1) := by
      rw [wide_mid (by omega) (by omega), k2]
    have w3 : wide ni ax (i + 1 + 2) = ax (i + 2) := by
      rw [wide_mid (by omega) (by omega), k3]
    rw [irgdint3w_some (i := i) (j := j) (im := i - 1) (ip := i + 1) (ipp := i + 2)
      (x1 := ax (i - 1)) (x2 := ax i) (x3 := ax (i + 1)) (x4 := ax (i + 2)) hi hjj hj ?_ ?_
      (by omega) (by omega) (by omega) (by omega), w0, w1, w2, w3, epx]
    · unfold newton16
      simp only [e, k0, k2, k3]
      rw [turn_mid (n := ni) (k := i) (by omega) (by omega),
        turn_mid (n := ni) (k := i - 1) (by omega) (by omega),
        turn_mid (n := ni) (k := i + 1) (by omega) (by omega),
        turn_mid (n := ni) (k := i + 2) (by omega) (by omega)]
    · unfold cols3iw
      rw [if_neg (by omega), if_neg (by omega), if_neg (by omega), if_neg (by omega),
        if_neg (by omega), rd1_some (by omega) (by omega), rd1_some (by omega) (by omega),
        rd1_some (by omega) (by omega), rd1_some (by omega) (by omega)]
      rfl
    · unfold nwtx
      rw [if_neg (by omega), if_neg (by omega), if_neg (by omega), if_neg (by omega),
        if_neg (by omega), if_pos (by omega)]
  · have w0 : wide ni ax (i + 1 - 1) = ax (ni - 2) := by
      rw [wide_mid (by omega) (by omega), k0]; congr 1; omega
    have w1 : wide ni ax (i + 1) = ax (ni - 1) := by
      rw [wide_mid (by omega) (by omega)]; congr 1; omega
    have w2 : wide ni ax (i + 1 + 1) = ax ni := by
      rw [wide_mid (by omega) (by omega)]; congr 1; omega
    have w3 : wide ni ax (i + 1 + 2) = ax 1 + 360 := by
      rw [wide_high (by omega) (by omega)]; congr 2; omega
    rw [irgdint3w_some (i := i) (j := j) (im := ni - 2) (ip := ni) (ipp := 1)
      (x1 := ax (ni - 2)) (x2 := ax (ni - 1)) (x3 := ax ni) (x4 := ax 1 + 360) hi hjj hj ?_ ?_
      (by omega) (by omega) (by omega) (by omega), w0, w1, w2, w3, epx]
    · unfold newton16
      simp only [e, k0, k2, k3]
      rw [turn_mid (n := ni) (k := i) (by omega) (by omega),
        turn_mid (n := ni) (k := i - 1) (by omega) (by omega),
        turn_mid (n := ni) (k := i + 1) (by omega) (by omega),
        turn_high (n := ni) (k := i + 2) (by omega) (by omega),
        show i + 2 - ni = 1 by omega, show i - 1 = ni - 2 by omega, show i + 1 = ni by omega]
    · unfold cols3iw
      rw [if_neg (by omega), if_neg (by omega), if_neg (by omega), if_pos (by omega),
        rd1_some (by omega) (by omega), rd1_some (by omega) (by omega),
        rd1_some (by omega) (by omega)]
      rfl
    · unfold nwtx
      rw [if_neg (by omega), if_pos (by omega)]
  · have w0 : wide ni ax (i + 1 - 1) = ax (ni - 1) := by
      rw [wide_mid (by omega) (by omega), k0]; congr 1; omega
    have w1 : wide ni ax (i + 1) = ax ni := by
      rw [wide_mid (by omega) (by omega)]; congr 1; omega
    have w2 : wide ni ax (i + 1 + 1) = ax 1 + 360 := by
      rw [wide_high (by omega) (by omega)]; congr 2; omega
    have w3 : wide ni ax (i + 1 + 2) = ax 2 + 360 := by
      rw [wide_high (by omega) (by omega)]; congr 2; omega
    rw [irgdint3w_some (i := i) (j := j) (im := ni - 1) (ip := 1) (ipp := 2)
      (x1 := ax (ni - 1)) (x2 := ax ni) (x3 := ax 1 + 360) (x4 := ax 2 + 360) hi hjj hj ?_ ?_
      (by omega) (by omega) (by omega) (by omega), w0, w1, w2, w3, epx]
    · unfold newton16
      simp only [e, k0, k2, k3]
      rw [turn_mid (n := ni) (k := i) (by omega) (by omega),
        turn_mid (n := ni) (k := i - 1) (by omega) (by omega),
        turn_high (n := ni) (k := i + 1) (by omega) (by omega),
        turn_high (n := ni) (k := i + 2) (by omega) (by omega),
        show i + 2 - ni = 2 by omega, show i - 1 = ni - 1 by omega, show i + 1 - ni = 1 by omega]
    · unfold cols3iw
      rw [if_neg (by omega), if_neg (by omega), if_neg (by omega), if_neg (by omega),
        if_pos (by omega),
        rd1_some (by omega) (by omega), rd1_some (by omega) (by omega),
        rd1_some (by omega) (by omega)]
      rfl
    · unfold nwtx
      rw [if_pos (by omega)]

/-- **C78, bicubic, extension 1.**  When the last column repeats the first, one turn away, the
kernel that wraps gives at every position the value of the plain kernel on the axis and the array
widened with copies of columns. -/
theorem C78_wrap_one (ni j1 j2 : ℤ) (ax ay : ℤ → ℚ) (z : ℤ → ℤ → ℚ) (px py : ℚ) (hni : 4 ≤ ni)
    (hj : j1 + 3 ≤ j2) (hx : ax ni = ax 1 + 360) (hz : ∀ l, z ni l = z 1 l) :
    irgdint3w ni j1 j2 1 ax ay z px py =
      irgdint3nw (ni + 2) j1 j2 (wide (ni - 1) ax) ay (fun k l => z ((k - 2) % (ni - 1) + 1) l)
        (px + 1) py := by
  have hs := ifix_succ px
  obtain ⟨i, hi⟩ : ∃ k, min (ni - 2 + 1) (max 1 (max (2 - 1) (ifix px))) = k := ⟨_, rfl⟩
  obtain ⟨j, hjj⟩ : ∃ l, min (j2 - 2) (max (j1 + 1) (ifix py)) = l := ⟨_, rfl⟩
  rw [irgdint3nw_some (ni + 2) j1 j2 _ ay _ (px + 1) py (i + 1) j (by omega) hjj (by omega) hj]
  have e : ∀ k, (k - 2) % (ni - 1) + 1 = turn (ni - 1) (k - 1) := by
    intro k; unfold turn; rw [show k - 1 - 1 = k - 2 by omega]
  have epx : px + 1 - ((i + 1 : ℤ) : ℚ) = px - i := by push_cast; ring
  have k0 : i + 1 - 1 = i := by omega
  have k2 : i + 1 + 1 - 1 = i + 1 := by omega
  have k3 : i + 1 + 2 - 1 = i + 2 := by omega
  have zt : ∀ k l, 1 ≤ k → k ≤ ni → z (turn (ni - 1) k) l = z k l := by
    intro k l h1 h2
    by_cases h : k = ni
    · rw [turn_high (by omega) (by omega), h, hz, show ni - (ni - 1) = 1 by omega]
    · rw [turn_mid (by omega) (by omega)]
  have wt : ∀ k, 2 ≤ k → k ≤ ni + 1 → wide (ni - 1) ax k = ax (k - 1) := by
    intro k h1 h2
    by_cases h : k = ni + 1
    · rw [wide_high (by omega) (by omega), h, show ni + 1 - 1 - (ni - 1) = 1 by omega,
        show ni + 1 - 1 = ni by omega, hx]
    · rw [wide_mid (by omega) (by omega)]
  rcases (by omega : i = 1 ∨ (2 ≤ i ∧ i ≤ ni - 2) ∨ i = ni - 1) with h | h | h
  · have w0 : wide (ni - 1) ax (i + 1 - 1) = ax (ni - 1) - 360 := by
      rw [show i + 1 - 1 = 1 by omega, wide_low (by omega)]
    have w1 : wide (ni - 1) ax (i + 1) = ax 1 := by
      rw [wt _ (by omega) (by omega), show i + 1 - 1 = 1 by omega]
    have w2 : wide (ni - 1) ax (i + 1 + 1) = ax 2 := by
      rw [wt _ (by omega) (by omega), show i + 1 + 1 - 1 = 2 by omega]
    have w3 : wide (ni - 1) ax (i + 1 + 2) = ax 3 := by
      rw [wt _ (by omega) (by omega), show i + 1 + 2 - 1 = 3 by omega]
    rw [irgdint3w_some (i := i) (j := j) (im := ni - 1) (ip := 2) (ipp := 3)
      (x1 := ax (ni - 1) - 360)
      (x2 := ax 1) (x3 := ax 2) (x4 := ax 3) hi hjj hj ?_ ?_ (by omega) (by omega) (by omega)
      (by omega), w0, w1, w2, w3, epx]
    · unfold newton16
      simp only [e, k0, k2, k3]
      rw [turn_mid (n := ni - 1) (k := i) (by omega) (by omega),
        turn_low (n := ni - 1) (k := i - 1) (by omega) (by omega),
        turn_mid (n := ni - 1) (k := i + 1) (by omega) (by omega),
        turn_mid (n := ni - 1) (k := i + 2) (by omega) (by omega),
        show i - 1 + (ni - 1) = ni - 1 by omega, show i + 1 = 2 by omega, show i + 2 = 3 by omega]
    · unfold cols3iw
      rw [if_pos (by omega), rd1_some (by omega) (by omega),
        rd1_some (by omega) (by omega), rd1_some (by omega) (by omega)]
      rfl
    · unfold nwtx
      rw [if_neg (by omega), if_neg (by omega), if_neg (by omega), if_neg (by omega),
        if_pos (by omega), show ax 1 - (ax ni - ax (ni - 1)) = ax (ni - 1) - 360 by rw [hx]; ring]
  · have w0 : wide (ni - 1) ax (i + 1 - 1) = ax (i - 1) := by
      rw [wt _ (by omega) (by omega), k0]
    have w1 : wide (ni - 1) ax (i + 1) = ax i := by rw [wt _ (by omega) (by omega), k0]
    have w2 : wide (ni - 1) ax (i + 1 + 1) = ax (i + 1) := by
      rw [wt _ (by omega) (by omega), k2]
    have w3 : wide (ni - 1) ax (i + 1 + 2) = ax (i + 2) := by
      rw [wt _ (by omega) (by omega), k3]
    rw [irgdint3w_some (i := i) (j := j) (im := i - 1) (ip := i + 1) (ipp := i + 2)
      (x1 := ax (i - 1)) (x2 := ax i) (x3 := ax (i + 1)) (x4 := ax (i + 2)) hi hjj hj ?_ ?_
      (by omega) (by omega) (by omega) (by omega), w0, w1, w2, w3, epx]
    · unfold newton16
      simp only [e, k0, k2, k3]
      simp only [zt i _ (by omega) (by omega), zt (i - 1) _ (by omega) (by omega),
        zt (i + 1) _ (by omega) (by omega), zt (i + 2) _ (by omega) (by omega)]
    · unfold cols3iw
      rw [if_neg (by omega), if_neg (by omega), if_neg (by omega), if_neg (by omega),
        if_neg (by omega), rd1_some (by omega) (by omega), rd1_some (by omega) (by omega),
        rd1_some (by omega) (by omega), rd1_some (by omega) (by omega)]
      rfl
    · unfold nwtx
      rw [if_neg (by omega), if_neg (by omega), if_neg (by omega), if_neg (by omega),
        if_neg (by omega), if_pos (by omega)]
  · have w0 : wide (ni - 1) ax (i + 1 - 1) = ax (ni - 2) := by
      rw [wt _ (by omega) (by omega)]; congr 1; omega
    have w1 : wide (ni - 1) ax (i + 1) = ax (ni - 1) := by
      rw [wt _ (by omega) (by omega)]; congr 1; omega
    have w2 : wide (ni - 1) ax (i + 1 + 1) = ax ni := by
      rw [wt _ (by omega) (by omega)]; congr 1; omega
    have w3 : wide (ni - 1) ax (i + 1 + 2) = ax 2 + 360 := by
      rw [wide_high (by omega) (by omega)]; congr 2; omega
    rw [irgdint3w_some (i := i) (j := j) (im := ni - 2) (ip := ni) (ipp := 2)
      (x1 := ax (ni - 2)) (x2 := ax (ni - 1)) (x3 := ax ni) (x4 := ax 2 + 360) hi hjj hj ?_ ?_
      (by omega) (by omega) (by omega) (by omega), w0, w1, w2, w3, epx]
    · unfold newton16
      simp only [e, k0, k2, k3]
      simp only [zt i _ (by omega) (by omega), zt (i - 1) _ (by omega) (by omega),
        zt (i + 1) _ (by omega) (by omega)]
      rw [turn_high (n := ni - 1) (k := i + 2) (by omega) (by omega),
        show i + 2 - (ni - 1) = 2 by omega, show i - 1 = ni - 2 by omega, show i + 1 = ni by omega]
    · unfold cols3iw
      rw [if_neg (by omega), if_pos (by omega),
        rd1_some (by omega) (by omega), rd1_some (by omega) (by omega),
        rd1_some (by omega) (by omega)]
      rfl
    · unfold nwtx
      rw [if_neg (by omega), if_neg (by omega), if_neg (by omega), if_pos (by omega),
        show ax ni + (ax 2 - ax 1) = ax 2 + 360 by rw [hx]; ring]

/-- **C78, the first coordinate.**  The inverse distances of the first cell are those of a point at
`ax(1) + ax(ni) - 360`, but the kernel uses `ax(ni) - 360`.  On the axis 30, 120, 210, 300 the value
at the first grid point is not the value of the point. -/
theorem C78_origin_witness :
    irgdint3w 4 1 4 2 (fun k => 90 * k - 60) (fun l => l) (fun k _ => if k = 1 then 6 else 0) 1 2 =
      some 9 ∧ ¬ ((90 * 1 - 60 : ℚ) = 0) := by
  decide +kernel

/-- On the axis 0, 90, 180, 270 the value at the first grid point is right. -/
example : irgdint3w 4 1 4 2 (fun k => 90 * k - 90) (fun l => l) (fun k _ => if k = 1 then 6 else 0)
    1 2 = some 6 := by decide +kernel

end Verif.EzInterp
