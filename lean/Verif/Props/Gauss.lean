import Verif.Gauss
import Mathlib.Tactic
import Verif.Props.OrdLeg
import Mathlib.Analysis.SpecialFunctions.Trigonometric.Deriv

namespace Verif.Gauss

open Verif.OrdLeg

/-! # C168: Gaussian latitudes -/

/-- The derivative of the polynomials, by the derivative of the recurrence. -/
noncomputable def dleg : Nat → ℝ → ℝ
  | 0, _ => 0
  | 1, _ => 1
  | n + 2, x => ((2 * (n : ℝ) + 3) * (legendre (n + 1) x + x * dleg (n + 1) x) - ((n : ℝ) + 1) * dleg n x) / ((n : ℝ) + 2)

theorem dleg_deriv (n : Nat) (x : ℝ) : HasDerivAt (legendre n) (dleg n x) x := by
  have both : ∀ n, HasDerivAt (legendre n) (dleg n x) x ∧ HasDerivAt (legendre (n + 1)) (dleg (n + 1) x) x := by
    intro n
    induction n with
    | zero =>
      refine ⟨?_, ?_⟩
      · rw [dleg, show legendre 0 = fun _ => 1 from funext fun _ => by rw [legendre]]; exact hasDerivAt_const x 1
      · rw [dleg, show legendre (0 + 1) = fun y => y from funext fun _ => by rw [legendre]]; exact hasDerivAt_id x
    | succ n ih =>
      refine ⟨ih.2, ?_⟩
      have e : legendre (n + 1 + 1) = fun y => ((2 * (n : ℝ) + 3) * (y * legendre (n + 1) y) - ((n : ℝ) + 1) * legendre n y) / ((n : ℝ) + 2) :=
        funext fun y => by rw [show n + 1 + 1 = n + 2 from rfl, legendre, mul_assoc]
      rw [e, show n + 1 + 1 = n + 2 from rfl, dleg]
      have h := (((hasDerivAt_id x).fun_mul ih.2).const_mul (2 * (n : ℝ) + 3)).fun_sub (ih.1.const_mul ((n : ℝ) + 1))
      have h := h.div_const ((n : ℝ) + 2)
      simpa using h
  exact (both n).1

theorem bonnet (n : Nat) (x : ℝ) : ((n : ℝ) + 2) * legendre (n + 2) x = (2 * (n : ℝ) + 3) * x * legendre (n + 1) x - ((n : ℝ) + 1) * legendre n x := by
  have : (n : ℝ) + 2 ≠ 0 := by positivity
  rw [legendre]; field_simp

theorem dbonnet (n : Nat) (x : ℝ) : ((n : ℝ) + 2) * dleg (n + 2) x =
    (2 * (n : ℝ) + 3) * (legendre (n + 1) x + x * dleg (n + 1) x) - ((n : ℝ) + 1) * dleg n x := by
  have : (n : ℝ) + 2 ≠ 0 := by positivity
  rw [dleg]; field_simp

theorem dleg_rel (n : Nat) (x : ℝ) : dleg (n + 1) x = x * dleg n x + ((n : ℝ) + 1) * legendre n x ∧
    x * dleg (n + 1) x - dleg n x = ((n : ℝ) + 1) * legendre (n + 1) x := by
  induction n with
  | zero => simp [dleg, legendre]
  | succ n ih =>
    obtain ⟨h1, h2⟩ := ih
    have b := bonnet n x
    have d := dbonnet n x
    have hn : (n : ℝ) + 2 ≠ 0 := by positivity
    have g1 : dleg (n + 2) x = x * dleg (n + 1) x + ((n : ℝ) + 2) * legendre (n + 1) x := by
      refine mul_left_cancel₀ hn ?_
      rw [d]
      linear_combination ((n : ℝ) + 1) * h2
    push_cast
    refine ⟨by rw [g1]; ring, ?_⟩
    rw [g1]
    linear_combination -b + x * h2 - h1

/-- The derivative from the polynomial and the one before. -/
theorem dleg_closed (n : Nat) (x : ℝ) : (x ^ 2 - 1) * dleg (n + 1) x = ((n : ℝ) + 1) * (x * legendre (n + 1) x - legendre n x) := by
  obtain ⟨h1, h2⟩ := dleg_rel n x
  linear_combination x * h2 - h1

/-- The normalized polynomial. -/
noncomputable def normed (n : Nat) (x : ℝ) : ℝ := √((2 * (n : ℝ) + 1) / 2) * legendre n x

theorem leg_normed {x : ℝ} (h1 : -1 ≤ x) (h2 : x ≤ 1) {n : Nat} (hn : 0 < n) : leg x n = normed n x := by
  rw [leg, C167 x n (0, 0) h1 h2 hn, normed]

theorem coef (t : ℝ) (ht : 0 ≤ t) : (t + 1) / √(4 * (t + 1) * (t + 1) - 1) * √((2 * (t + 1) + 1) / 2) = (t + 1) / (2 * t + 1) * √((2 * t + 1) / 2) ∧
    (t + 1) / √(4 * (t + 1) * (t + 1) - 1) * √((2 * t + 1) / 2) = (t + 1) / (2 * (t + 1) + 1) * √((2 * (t + 1) + 1) / 2) := by
  have p1 : 0 < 2 * t + 1 := by linarith
  have p2 : 0 < 2 * (t + 1) + 1 := by linarith
  have e : 4 * (t + 1) * (t + 1) - 1 = (2 * t + 1) * (2 * (t + 1) + 1) := by ring
  rw [e, Real.sqrt_mul p1.le, Real.sqrt_div' _ (by norm_num), Real.sqrt_div' _ (by norm_num)]
  have q1 := Real.mul_self_sqrt p1.le
  have q2 := Real.mul_self_sqrt p2.le
  have r1 := Real.sqrt_pos.2 p1
  have r2 := Real.sqrt_pos.2 p2
  have r0 : (0 : ℝ) < √2 := by positivity
  constructor
  · generalize 2 * t + 1 = u at *
    generalize 2 * (t + 1) + 1 = v at *
    field_simp
    rw [sq, q1]
  · generalize 2 * (t + 1) + 1 = v at *
    generalize 2 * t + 1 = u at *
    field_simp
    rw [sq, q2]

/-- C168.  What `GAUSS8` uses as the derivative is the derivative of the normalized polynomial of degree `2·nracp`. -/
theorem C168_slope (nracp : Nat) (hn : 0 < nracp) (x : ℝ) (h1 : -1 < x) (h2 : x < 1) :
    HasDerivAt (normed (2 * nracp)) (slope nracp x) x := by
  obtain ⟨m, hm⟩ : ∃ m, 2 * nracp = m + 1 := ⟨2 * nracp - 1, by omega⟩
  have hx : x ^ 2 - 1 ≠ 0 := by nlinarith
  have hs : slope nracp x = √((2 * ((m + 1 : ℕ) : ℝ) + 1) / 2) * dleg (m + 1) x := by
    simp only [slope, hm]
    rw [leg_normed h1.le h2.le (by omega), leg_normed h1.le h2.le (by omega), show m + 1 - 1 = m by omega, ← sq, div_eq_iff hx, normed, normed]
    have c := dleg_closed m x
    have b := bonnet m x
    have k1 := (coef ((m : ℝ) + 1) (by positivity)).1
    have k2 := (coef (m : ℝ) (by positivity)).2
    rw [show m + 1 + 1 = m + 2 from rfl]
    push_cast at k1 k2 ⊢
    have p : (2 * ((m : ℝ) + 1) + 1) ≠ 0 := by positivity
    have e1 : ((m : ℝ) + 1 + 1) / √(4 * ((m : ℝ) + 1 + 1) * ((m : ℝ) + 1 + 1) - 1) * ((m : ℝ) + 1) * (√((2 * ((m : ℝ) + 2) + 1) / 2) * legendre (m + 2) x) =
        √((2 * ((m : ℝ) + 1) + 1) / 2) * (((m : ℝ) + 1) / (2 * ((m : ℝ) + 1) + 1) * (((m : ℝ) + 2) * legendre (m + 2) x)) := by
      have : (2 * ((m : ℝ) + 2) + 1) = (2 * ((m : ℝ) + 1 + 1) + 1) := by ring
      rw [this]
      linear_combination ((m : ℝ) + 1) * legendre (m + 2) x * k1
    have e2 : ((m : ℝ) + 1) / √(4 * ((m : ℝ) + 1) * ((m : ℝ) + 1) - 1) * ((m : ℝ) + 1 + 1) * (√((2 * (m : ℝ) + 1) / 2) * legendre m x) =
        √((2 * ((m : ℝ) + 1) + 1) / 2) * (((m : ℝ) + 1) / (2 * ((m : ℝ) + 1) + 1) * (((m : ℝ) + 2) * legendre m x)) := by
      linear_combination ((m : ℝ) + 2) * legendre m x * k2
    rw [e1, e2, b]
    have : √((2 * ((m : ℝ) + 1) + 1) / 2) * dleg (m + 1) x * (x ^ 2 - 1) = √((2 * ((m : ℝ) + 1) + 1) / 2) * (((m : ℝ) + 1) * (x * legendre (m + 1) x - legendre m x)) := by
      rw [← c]; ring
    rw [this]
    field_simp
    ring
  rw [hs, hm]
  exact (dleg_deriv (m + 1) x).const_mul _

/-- C168.  A pass is a step of Newton's method for the polynomial, and when the loop ends the last step was not longer than the
limit. -/
theorem C168_newton (nracp : Nat) (hn : 0 < nracp) (fuel : Nat) (x0 y : ℝ) (h : newton nracp fuel x0 = some y) :
    ∃ x, |x - y| ≤ 1 / 10 ^ 13 ∧ (-1 < x → x < 1 → y = x - normed (2 * nracp) x / deriv (normed (2 * nracp)) x) := by
  induction fuel generalizing x0 with
  | zero => rw [newton] at h; exact absurd h (by simp)
  | succ fuel ih =>
    rw [newton] at h
    split at h
    · exact ih _ h
    · rename_i hl
      have h := Option.some.inj h
      refine ⟨x0, by rw [← h]; exact not_lt.1 hl, fun h1 h2 => ?_⟩
      rw [← h, step, (C168_slope nracp hn x0 h1 h2).deriv, leg_normed h1.le h2.le (by omega)]

/-- C168.  At a root of the polynomial the loop ends at once, with the root. -/
theorem C168_root (nracp : Nat) (hn : 0 < nracp) (fuel : Nat) (x : ℝ) (h1 : -1 < x) (h2 : x < 1) (hr : legendre (2 * nracp) x = 0) :
    newton nracp (fuel + 1) x = some x := by
  have : step nracp x = x := by rw [step, leg_normed h1.le h2.le (by omega), normed, hr]; simp
  rw [newton, this, if_neg (by simp)]

/-- C168.  At a root the weight is that of Gauss: `2 / ((1-x²)·P'(x)²)`. -/
theorem C168_weight (nracp : Nat) (hn : 0 < nracp) (x : ℝ) (h1 : -1 < x) (h2 : x < 1) (hr : legendre (2 * nracp) x = 0) :
    weight nracp x = 2 / ((1 - x ^ 2) * (deriv (legendre (2 * nracp)) x) ^ 2) := by
  obtain ⟨m, hm⟩ : ∃ m, 2 * nracp = m + 1 := ⟨2 * nracp - 1, by omega⟩
  have hx : 1 - x ^ 2 ≠ 0 := by nlinarith
  have c := dleg_closed m x
  rw [hm] at hr
  rw [hr, mul_zero, zero_sub] at c
  rw [(dleg_deriv (2 * nracp) x).deriv, hm]
  simp only [weight, hm]
  rw [leg_normed h1.le h2.le (by omega), show m + 1 - 1 = m by omega, normed]
  have q : √((2 * (m : ℝ) + 1) / 2) * √((2 * (m : ℝ) + 1) / 2) = (2 * (m : ℝ) + 1) / 2 := Real.mul_self_sqrt (by positivity)
  have p : (2 * (m : ℝ) + 1) ≠ 0 := by positivity
  have d : (m + 1 : ℝ) ≠ 0 := by positivity
  have hd : ((m : ℝ) + 1) * legendre m x = (1 - x ^ 2) * dleg (m + 1) x := by linear_combination c
  have den : √((2 * (m : ℝ) + 1) / 2) * legendre m x * (√((2 * (m : ℝ) + 1) / 2) * legendre m x) * ((m + 1 : ℕ) : ℝ) * ((m + 1 : ℕ) : ℝ) =
      (2 * (m : ℝ) + 1) / 2 * ((1 - x ^ 2) * dleg (m + 1) x) ^ 2 := by
    rw [← hd]; push_cast; linear_combination (((m : ℝ) + 1) * legendre m x) ^ 2 * q
  rw [den]
  push_cast
  by_cases hz : dleg (m + 1) x = 0
  · rw [hz]; simp
  · field_simp
    ring

/-- C168.  The first values are the cosines of equidistant colatitudes: they decrease from 1 to 0. -/
theorem C168_first (nracp i j : Nat) (hi : 1 ≤ i) (hij : i < j) (hj : j ≤ nracp) :
    0 < first nracp j ∧ first nracp j < first nracp i ∧ first nracp i < 1 ∧
    first nracp i = Real.cos (Real.pi * (2 * i - 1) / (2 * (2 * nracp))) := by
  have hpi := Real.pi_pos
  have e : ∀ k : Nat, 1 ≤ nracp → first nracp k = Real.cos (Real.pi * (2 * k - 1) / (2 * (2 * nracp))) := by
    intro k hk
    have : (nracp : ℝ) ≠ 0 := by positivity
    rw [first, show -(Real.pi / 2) * (((k : ℝ) - 1) + 0.5) / nracp + Real.pi / 2 = Real.pi / 2 - Real.pi * (2 * k - 1) / (2 * (2 * nracp)) by
      field_simp; ring, Real.sin_pi_div_two_sub]
  have hn : (0 : ℝ) < nracp := by exact_mod_cast (by omega : 0 < nracp)
  have hi' : (1 : ℝ) ≤ i := by exact_mod_cast hi
  have hij' : (i : ℝ) < j := by exact_mod_cast hij
  have hj' : (j : ℝ) ≤ nracp := by exact_mod_cast hj
  rw [e i (by omega), e j (by omega)]
  have a0 : 0 < Real.pi * (2 * i - 1) / (2 * (2 * nracp)) := by
    apply div_pos (mul_pos hpi (by linarith)) (by linarith)
  have a1 : Real.pi * (2 * i - 1) / (2 * (2 * nracp)) < Real.pi * (2 * j - 1) / (2 * (2 * nracp)) := by
    apply div_lt_div_of_pos_right _ (by linarith)
    exact mul_lt_mul_of_pos_left (by linarith) hpi
  have a2 : Real.pi * (2 * j - 1) / (2 * (2 * nracp)) < Real.pi / 2 := by
    rw [div_lt_div_iff₀ (by linarith) (by norm_num)]
    nlinarith
  refine ⟨Real.cos_pos_of_mem_Ioo ⟨by linarith, a2⟩, Real.cos_lt_cos_of_nonneg_of_le_pi (by linarith) (by linarith) a1, ?_, rfl⟩
  have := Real.cos_lt_cos_of_nonneg_of_le_pi (le_refl (0 : ℝ)) (by linarith) a0
  rwa [Real.cos_zero] at this

/-- C168.  The other values are the functions of the colatitude they are said to be. -/
theorem C168_others (x pg : ℝ) (h1 : -1 < x) (h2 : x < 1) :
    Real.cos (others x pg).1 = x ∧ (others x pg).2.1 = √(1 - x ^ 2) ∧ (others x pg).2.1 * (others x pg).2.2.1 = 1 ∧
    (1 - x ^ 2) * (others x pg).2.2.2.1 = 1 ∧ (1 - x ^ 2) * (others x pg).2.2.2.2.1 = pg ∧ (others x pg).2.2.2.2.2 = 1 - x ^ 2 := by
  have hx : 0 < 1 - x ^ 2 := by nlinarith
  have hs : Real.sin (Real.arccos x) = √(1 - x ^ 2) := Real.sin_arccos x
  have hp := Real.sqrt_pos.2 hx
  simp only [others, hs, Real.sq_sqrt hx.le]
  refine ⟨Real.cos_arccos h1.le h2.le, trivial, ?_, ?_, ?_, trivial⟩ <;> field_simp

/-- One positive root: `1/√3`, of weight 1. -/
example : legendre (2 * 1) (1 / √3) = 0 ∧ (-1 : ℝ) < 1 / √3 ∧ 1 / √3 < (1 : ℝ) := by
  have h3 : √3 * √3 = (3 : ℝ) := Real.mul_self_sqrt (by norm_num)
  have p : (0 : ℝ) < √3 := by positivity
  have g1 : (1 : ℝ) < √3 := by nlinarith
  refine ⟨?_, ?_, ?_⟩
  · have : legendre (2 * 1) (1 / √3) = (3 * (1 / √3) ^ 2 - 1) / 2 := by
      show legendre 2 _ = _
      simp only [legendre]; push_cast; ring
    rw [this, div_pow, sq √3, h3]; norm_num
  · have : 0 < 1 / √3 := by positivity
    linarith
  · rw [div_lt_one p]; exact g1


end Verif.Gauss
