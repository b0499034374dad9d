import Verif.Props.Md5
import Mathlib.Analysis.Complex.Exponential
import Mathlib.Analysis.Complex.Trigonometric
import Mathlib.Analysis.SpecialFunctions.Trigonometric.Basic

/-!
The constants of MD5 are the integer parts of `2 ^ 32 |sin (i + 1)|`.
-/
namespace Props.Md5

open Complex

/-- `(A + B i) ^ n` with the numerators of twenty terms of `exp i`, over `19!`. -/
def turn : Nat → ℤ × ℤ
  | 0 => (1, 0)
  | n + 1 =>
    let v := turn n
    (v.1 * 65725128248453315 - v.2 * 102360822438075317, v.1 * 102360822438075317 + v.2 * 65725128248453315)

theorem near_one : ‖exp I - ((65725128248453315 : ℂ) + 102360822438075317 * I) / 121645100408832000‖ ≤ (1 / 2 ^ 60 : ℝ) := by
  have h := exp_bound (x := I) (by simp) (n := 20) (by norm_num)
  have e : ∑ m ∈ Finset.range 20, I ^ m / (m.factorial : ℂ) = ((65725128248453315 : ℂ) + 102360822438075317 * I) / 121645100408832000 := by
    simp only [Finset.sum_range_succ, Finset.sum_range_zero, pow_succ, pow_zero, one_mul, I_mul_I, Nat.factorial]
    push_cast
    apply Complex.ext <;> simp <;> norm_num
  rw [e] at h
  refine h.trans ?_
  simp [Nat.factorial]
  norm_num

theorem pow_near (a b : ℂ) (ε : ℝ) (h0 : 0 ≤ ε) (ha : ‖a‖ = 1) (h : ‖a - b‖ ≤ ε) :
    ∀ n : ℕ, 2 * n * ε ≤ 1 → ‖a ^ n - b ^ n‖ ≤ 2 * n * ε
  | 0, _ => by simp
  | n + 1, hn => by
    push_cast at hn ⊢
    have ih := pow_near a b ε h0 ha h n (by nlinarith)
    have hb : ‖b‖ ≤ 1 + ε := by
      have : ‖b‖ ≤ ‖a‖ + ‖a - b‖ := by
        have := norm_sub_le a (a - b)
        simpa using this
      linarith
    have e : a ^ (n + 1) - b ^ (n + 1) = (a ^ n - b ^ n) * b + a ^ n * (a - b) := by ring
    rw [e]
    have h1 : ‖(a ^ n - b ^ n) * b‖ ≤ 2 * n * ε * (1 + ε) := by
      rw [norm_mul]
      exact mul_le_mul ih hb (norm_nonneg _) (by positivity)
    have h2 : ‖a ^ n * (a - b)‖ ≤ ε := by
      rw [norm_mul, norm_pow, ha, one_pow, one_mul]
      exact h
    have := norm_add_le ((a ^ n - b ^ n) * b) (a ^ n * (a - b))
    have h3 : (2 * n * ε) * ε ≤ 1 * ε := mul_le_mul_of_nonneg_right (by nlinarith) h0
    nlinarith

theorem turn_eq (n : ℕ) : (((65725128248453315 : ℂ) + 102360822438075317 * I) / 121645100408832000) ^ n = ((turn n).1 + (turn n).2 * I) / 121645100408832000 ^ n := by
  rw [div_pow]
  congr 1
  induction n with
  | zero => simp [turn]
  | succ n ih =>
    rw [pow_succ, ih, turn]
    push_cast
    ring_nf
    rw [I_sq]
    ring

theorem sin_near (n : ℕ) (hn : n ≤ 64) : |Real.sin n - (turn n).2 / 121645100408832000 ^ n| ≤ 1 / 2 ^ 50 := by
  have h := pow_near (exp I) (((65725128248453315 : ℂ) + 102360822438075317 * I) / 121645100408832000) (1 / 2 ^ 60) (by positivity)
    (by have := norm_exp_ofReal_mul_I 1; simpa using this) near_one n
    (by
      have : (n : ℝ) ≤ 64 := by exact_mod_cast hn
      norm_num
      linarith)
  rw [turn_eq, ← Complex.exp_nat_mul] at h
  have e : Real.sin n - (turn n).2 / 121645100408832000 ^ n = (exp (n * I) - ((turn n).1 + (turn n).2 * I) / 121645100408832000 ^ n).im := by
    have h1 : (exp ((n : ℝ) * I)).im = Real.sin n := exp_ofReal_mul_I_im n
    rw [sub_im]
    have h2 : ((((turn n).1 : ℂ) + (turn n).2 * I) / 121645100408832000 ^ n) =
        (((turn n).1 / 121645100408832000 ^ n : ℝ) : ℂ) + (((turn n).2 / 121645100408832000 ^ n : ℝ) : ℂ) * I := by
      push_cast
      ring
    push_cast at h1
    rw [h2, h1, add_im, ofReal_im, im_ofReal_mul, I_im, zero_add, mul_one]
  rw [e]
  refine (abs_im_le_norm _).trans (h.trans ?_)
  have : (n : ℝ) ≤ 64 := by exact_mod_cast hn
  norm_num
  linarith

theorem table_near : ∀ i < 64, (table i * 2 ^ 18 + 1 : ℤ) * 121645100408832000 ^ (i + 1) ≤ 2 ^ 50 * |(turn (i + 1)).2| ∧
    2 ^ 50 * |(turn (i + 1)).2| ≤ ((table i + 1) * 2 ^ 18 - 2 : ℤ) * 121645100408832000 ^ (i + 1) := by
  decide +kernel

/-- The table is the one that RFC 1321 defines with the sine. -/
theorem C62_table (i : ℕ) (hi : i < 64) : (table i : ℤ) = ⌊2 ^ 32 * |Real.sin (i + 1)|⌋ := by
  obtain ⟨h1, h2⟩ := table_near i hi
  have hs := sin_near (i + 1) hi
  push_cast at hs
  have hD : (0 : ℝ) < 121645100408832000 ^ (i + 1) := by positivity
  have g1 : ((table i * 2 ^ 18 + 1 : ℤ) : ℝ) * 121645100408832000 ^ (i + 1) ≤ 2 ^ 50 * |((turn (i + 1)).2 : ℝ)| := by exact_mod_cast h1
  have g2 : 2 ^ 50 * |((turn (i + 1)).2 : ℝ)| ≤ (((table i + 1) * 2 ^ 18 - 2 : ℤ) : ℝ) * 121645100408832000 ^ (i + 1) := by exact_mod_cast h2
  have e : |((turn (i + 1)).2 : ℝ) / 121645100408832000 ^ (i + 1)| * 121645100408832000 ^ (i + 1) = |((turn (i + 1)).2 : ℝ)| := by
    rw [abs_div, abs_of_pos hD]
    field_simp
  rw [← e, ← mul_assoc] at g1 g2
  have k1 := le_of_mul_le_mul_right g1 hD
  have k2 := le_of_mul_le_mul_right g2 hD
  have a := abs_abs_sub_abs_le (Real.sin (i + 1)) (((turn (i + 1)).2 : ℝ) / 121645100408832000 ^ (i + 1))
  have b := abs_le.1 (a.trans hs)
  push_cast at k1 k2
  symm
  rw [Int.floor_eq_iff]
  push_cast
  constructor <;> linarith [b.1, b.2]

end Props.Md5
