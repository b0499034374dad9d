import Verif.Idxes
import Mathlib.Tactic

namespace Verif.Idxes

/-! # Points around a place on a sphere: what the indices mean -/

/-- The row of a sphere for a row number which may lie beyond a pole or the equator: rows 1 to `lj` are those of the field,
a row of the other hemisphere is the one at the same latitude with a minus sign. -/
def Row (lj : Int) (k : Kase) (d r : Int) : Prop :=
  (1 ≤ d ∧ d ≤ lj ∧ r = d) ∨
  (d < 1 ∧ k ≠ .south ∧ r = 1 - d) ∨ (d < 1 ∧ k = .south ∧ r = -(1 - d)) ∨
  (lj < d ∧ k ≠ .north ∧ r = 2 * lj + 1 - d) ∨ (lj < d ∧ k = .north ∧ r = -(2 * lj + 1 - d))

/-- A pole lies between row `d` and the field. -/
def Pole (lj : Int) (k : Kase) (d : Int) : Prop := (d < 1 ∧ k ≠ .south) ∨ (lj < d ∧ k ≠ .north)

theorem beyond_iff (d lj : Int) (k : Kase) (_h : 0 < lj) : beyond d lj k = true ↔ Pole lj k d := by
  unfold beyond Pole
  cases k <;> split_ifs <;> simp_all <;> omega

/-- Columns: within the circle, the column wanted up to whole circles, and half a circle away beyond a pole. -/
theorem C151_columns (i j li lj : Int) (k : Kase) (ii jj : Int) (hli : 3 ≤ li) (hlj : 0 < lj) (hi : 1 ≤ i ∧ i ≤ li)
    (hii : 1 ≤ ii ∧ ii ≤ 4) (hjj : 1 ≤ jj ∧ jj ≤ 4) :
    1 ≤ idx i j li lj k ii jj ∧ idx i j li lj k ii jj ≤ li ∧
    (Pole lj k (j - 2 + jj) → ∃ t, idx i j li lj k ii jj = i - 2 + ii + li / 2 + t * li) ∧
    (¬ Pole lj k (j - 2 + jj) → ∃ t, idx i j li lj k ii jj = i - 2 + ii + t * li) := by
  have hd : li.tdiv 2 = li / 2 := Int.tdiv_eq_ediv_of_nonneg (by omega)
  have hb := beyond_iff (j - 2 + jj) lj k hlj
  by_cases hr : range i j li lj = true
  · have hr' := hr
    simp only [range, decide_eq_true_eq] at hr'
    have hnp : ¬ Pole lj k (j - 2 + jj) := by unfold Pole; omega
    simp only [idx, hr, if_true]
    exact ⟨by omega, by omega, fun h => absurd h hnp, fun _ => ⟨0, by omega⟩⟩
  · simp only [idx, hr, Bool.false_eq_true, if_false, hd]
    by_cases hp : Pole lj k (j - 2 + jj)
    · rw [if_pos (hb.2 hp)]
      refine ⟨by split_ifs <;> omega, by split_ifs <;> omega, fun _ => ?_, fun h => absurd hp h⟩
      split_ifs
      · exact ⟨0, by omega⟩
      · exact ⟨1, by omega⟩
      · exact ⟨-1, by omega⟩
      · exact ⟨0, by omega⟩
    · rw [if_neg (fun h => hp (hb.1 h))]
      refine ⟨by split_ifs <;> omega, by split_ifs <;> omega, fun h => absurd h hp, fun _ => ?_⟩
      split_ifs
      · exact ⟨0, by omega⟩
      · exact ⟨1, by omega⟩
      · exact ⟨-1, by omega⟩
      · exact ⟨0, by omega⟩

theorem isign_eq (a b : Int) :
    isign a b = if 0 ≤ b then (if 0 ≤ a then a else -a) else (if 0 ≤ a then -a else a) := by
  unfold isign
  split_ifs <;> omega

/-- Rows: a row of the field, with a minus sign on the other hemisphere.  For a field of the north the place may be on the
southern hemisphere, but two rows from the south pole at least. -/
theorem C151_rows (i j li lj : Int) (k : Kase) (jj : Int) (hjj : 1 ≤ jj ∧ jj ≤ 4)
    (hj : -lj + 2 ≤ j ∧ (k ≠ .south → 0 ≤ j)) (hj2 : j ≤ 2 * lj - 2 ∧ (k ≠ .north → j ≤ lj)) :
    Row lj k (j - 2 + jj) (jdx i j li lj k jj) ∧ 1 ≤ (jdx i j li lj k jj).natAbs ∧ (jdx i j li lj k jj).natAbs ≤ lj := by
  by_cases hr : range i j li lj = true
  · have hr' := hr
    simp only [range, decide_eq_true_eq] at hr'
    simp only [jdx, hr, if_true]
    refine ⟨Or.inl ⟨by omega, by omega, rfl⟩, by omega, by omega⟩
  · simp only [jdx, hr, Bool.false_eq_true, if_false, isign_eq, Row]
    cases k <;> simp only [ne_eq, reduceCtorEq, not_true_eq_false, not_false_eq_true, forall_const, false_implies, and_true, if_true, if_false, true_and, false_and, and_false, or_false] at hj hj2 ⊢
    all_goals
      by_cases h1 : j - 2 + jj < 1
      · simp only [h1, if_true, true_and, false_or]
        split_ifs <;> omega
      · simp only [h1, if_false]
        split_ifs <;> omega

example : (idx 1 0 8 4 .global 1 1, jdx 1 0 8 4 .global 1) = (4, 2) ∧ (idx 8 6 8 4 .north 4 3, jdx 8 6 8 4 .north 3) = (2, -2) := by decide +kernel

/-- For a field of the north and a place near the south pole, which the test of the arguments lets through, the row is 0. -/
theorem C151_south_pole_witness (li lj : Int) (i : Int) (h : 2 ≤ lj) (hi : 1 ≤ i ∧ i ≤ li) :
    wrong i (2 * lj) li lj .north = false ∧ jdx i (2 * lj) li lj .north 3 = 0 := by
  refine ⟨by simp [wrong]; omega, ?_⟩
  have hr : ¬ range i (2 * lj) li lj = true := by simp [range]; omega
  simp only [jdx, hr, Bool.false_eq_true, if_false]
  rw [if_neg (show ¬ 2 * lj - 2 + 3 < 1 by omega), if_pos (show lj < 2 * lj - 2 + 3 by omega),
    show (2 * lj + 1 - (2 * lj - 2 + 3) : Int) = 0 from by omega]
  rfl

/-- For a field of the south every place of the northern hemisphere but the half row at the equator gets the message, though
its indices are right (C151_rows). -/
theorem C151_north_message_witness (i j li lj : Int) (h : j < 0) : wrong i j li lj .south = true := by
  simp [wrong]; omega

example : wrong 3 (-1) 8 4 .south = true ∧ jdx 3 (-1) 8 4 .south 2 = -2 := by decide +kernel

/-- Which places get the message. -/
theorem C151_message (i j li lj : Int) (k : Kase) : wrong i j li lj k = true ↔
    i < 1 ∨ li < i ∨ j < 0 ∨ (k = .north ∧ 2 * lj < j) ∨ (k ≠ .north ∧ lj < j) := by
  cases k <;> simp [wrong] <;> omega

example : wrong 1 0 8 4 .north = false ∧ wrong 1 (-1) 8 4 .north = true ∧ wrong 3 8 8 4 .north = false ∧ wrong 3 8 8 4 .global = true := by decide +kernel

end Verif.Idxes
