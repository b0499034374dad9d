import Mathlib.Tactic.Linarith
import Mathlib.Tactic.NormNum
import Mathlib.Tactic.Positivity
import Mathlib.Tactic.FieldSimp
import Verif.DateInc
/-!
# Rounding in the hour arithmetic
-/
namespace Verif.Date

theorem nint_near (x : ℚ) (k : ℤ) (h : |x - k| < 1 / 2) : nint x = k := by
  rw [abs_lt] at h
  unfold nint
  split
  · rw [Int.floor_eq_iff]; constructor <;> linarith
  · have : ⌊-x + 1 / 2⌋ = -k := by
      rw [Int.floor_eq_iff]; push_cast; constructor <;> linarith
    rw [this]; omega

theorem nint_int (k : ℤ) : nint (k : ℚ) = k := nint_near _ _ (by simp)

theorem fl_int {p : Nat} (R : Rounding p) (k : ℤ) (h : |k| ≤ 2 ^ p) (x : ℚ) (hx : x = k) : R.fl x = k := by
  rw [hx]; exact R.int k h

/-- The difference of true dates in hours. -/
theorem fl_hours (R : Rounding 53) (mode : Mode) (X n : ℤ) (h : |n| ≤ 2 ^ 53) :
    R.fl ((X + n * hourUnits mode - X : ℤ) / (hourUnits mode : ℚ)) = n := by
  refine fl_int R n h _ ?_
  have e : X + n * hourUnits mode - X = n * hourUnits mode := by omega
  rw [e]
  cases mode <;> simp [hourUnits]

theorem fl_add720 (R : Rounding 53) (n : ℤ) (h : |n| ≤ 2 ^ 40) : nint (R.fl (720 * (n : ℚ))) = 720 * n := by
  rw [abs_le] at h
  have : R.fl (720 * (n : ℚ)) = ((720 * n : ℤ) : ℚ) :=
    fl_int R (720 * n) (by rw [abs_le]; constructor <;> omega) _ (by push_cast; rfl)
  rw [this, nint_int]

theorem trunc_abs (n : ℤ) : truncNonneg |(n : ℚ)| = |n| := by
  unfold truncNonneg
  rw [← Int.cast_abs, Int.floor_intCast]

/-- Adding the hours from a true date `k` units away gives that true date back: the error of the two
roundings is far below half a unit. -/
theorem fl_back (R : Rounding 53) (k : ℤ) (h : |k| ≤ 2 ^ 32) :
    nint (R.fl (720 * R.fl ((k : ℚ) / 720))) = k := by
  apply nint_near
  have e1 := R.err ((k : ℚ) / 720)
  have e2 := R.err (720 * R.fl ((k : ℚ) / 720))
  have hk : |(k : ℚ)| ≤ 2 ^ 32 := by
    rw [← Int.cast_abs]; exact_mod_cast h
  generalize R.fl ((k : ℚ) / 720) = a at *
  generalize R.fl (720 * a) = b at *
  have e3 : |(k : ℚ) / 720| ≤ 2 ^ 32 / 720 := by
    rw [abs_div]; norm_num; linarith
  have e1' : |a - (k : ℚ) / 720| ≤ 2 ^ 32 / 720 / 2 ^ 53 := le_trans e1 (by gcongr)
  rw [abs_le] at e1' e3
  have ha : |720 * a| ≤ 2 ^ 33 := by
    rw [abs_le]; constructor <;> norm_num at * <;> linarith
  have e2' : |b - 720 * a| ≤ 2 ^ 33 / 2 ^ 53 := le_trans e2 (by gcongr)
  rw [abs_le] at e2'
  rw [abs_lt]
  constructor <;> norm_num at * <;> linarith

/-- `nint((tdate1-tdate2)/720.0)` in single precision is right for whole hours within the range of
true dates. -/
theorem fl4_hours (S : Rounding 24) (n : ℤ) (h : |n| ≤ 3000000) :
    nint (S.fl (S.fl ((720 * n : ℤ) : ℚ) / 720)) = n := by
  apply nint_near
  have hn : |(n : ℚ)| ≤ 3000000 := by
    rw [← Int.cast_abs]; exact_mod_cast h
  have e1 := S.err ((720 * n : ℤ) : ℚ)
  have e2 := S.err (S.fl ((720 * n : ℤ) : ℚ) / 720)
  generalize S.fl ((720 * n : ℤ) : ℚ) = a at *
  generalize S.fl (a / 720) = b at *
  have e0 : |((720 * n : ℤ) : ℚ)| ≤ 720 * 3000000 := by
    push_cast
    rw [abs_mul]; norm_num; linarith
  have e1' : |a - ((720 * n : ℤ) : ℚ)| ≤ 720 * 3000000 / 2 ^ 24 := le_trans e1 (by gcongr)
  push_cast at e1'
  rw [abs_le] at e1' hn
  have ha : |a / 720| ≤ 3000001 := by
    rw [abs_le]; constructor <;> norm_num at * <;> linarith
  have e2' : |b - a / 720| ≤ 3000001 / 2 ^ 24 := le_trans e2 (by gcongr)
  rw [abs_le] at e2'
  rw [abs_lt]
  constructor <;> norm_num at * <;> linarith

end Verif.Date
