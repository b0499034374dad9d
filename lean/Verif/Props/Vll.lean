import Verif.Vll
import Mathlib.Tactic
import Verif.Props.Sll

namespace Verif.Vll

open Verif.Sll

/-! # C174: speed and direction of an interpolated wind -/

/-- C174.  `S` is the speed, and `PSI` the direction, from 0 to 360, of the wind seen on a map with the pole in its middle: the vector with
the components `u` to the east and `v` to the north, turned by the longitude and a right angle. -/
theorem C174_direction (lambda u v : ℝ) (h : u ≠ 0 ∨ v ≠ 0) :
    let r := direction lambda u v
    r.1 ^ 2 = u ^ 2 + v ^ 2 ∧ 0 < r.1 ∧ 0 ≤ r.2 ∧ r.2 < 360 ∧
      r.1 * Real.cos (r.2 * (Real.pi / 180)) = u * Real.cos ((lambda + 90) * (Real.pi / 180)) - v * Real.sin ((lambda + 90) * (Real.pi / 180)) ∧
      r.1 * Real.sin (r.2 * (Real.pi / 180)) = u * Real.sin ((lambda + 90) * (Real.pi / 180)) + v * Real.cos ((lambda + 90) * (Real.pi / 180)) := by
  have pos : 0 < u ^ 2 + v ^ 2 := by
    rcases h with h | h
    · have := sq_pos_of_ne_zero h; positivity
    · have := sq_pos_of_ne_zero h; positivity
  have s0 : 0 < √(u ^ 2 + v ^ 2) := Real.sqrt_pos.2 pos
  have pi0 := Real.pi_pos
  have e90 : (lambda + 90) * (Real.pi / 180) = lambda * (Real.pi / 180) + Real.pi / 2 := by ring
  intro r
  rw [e90, Real.cos_add_pi_div_two, Real.sin_add_pi_div_two]
  generalize ha : lambda * (Real.pi / 180) = a at *
  let z : ℂ := ⟨(0 - Real.sin a) * u - Real.cos a * v, Real.cos a * u + (0 - Real.sin a) * v⟩
  have nz : ‖z‖ = √(u ^ 2 + v ^ 2) := by
    rw [Complex.norm_def, Complex.normSq_mk]
    congr 1
    linear_combination (u ^ 2 + v ^ 2) * Real.sin_sq_add_cos_sq a
  have z0 : z ≠ 0 := by
    intro hz
    rw [hz, norm_zero] at nz
    linarith
  have r1 : r.1 = √(u ^ 2 + v ^ 2) := rfl
  have r2 : r.2 = if 180 / Real.pi * z.arg < 0 then 180 / Real.pi * z.arg + 360 else 180 / Real.pi * z.arg := by
    simp only [r, direction, ha, if_pos s0.ne', z]
  have rad : r.2 * (Real.pi / 180) = z.arg ∨ r.2 * (Real.pi / 180) = z.arg + 2 * Real.pi := by
    rw [r2]
    split_ifs
    · right; field_simp; ring
    · left; field_simp
  have c : Real.cos (r.2 * (Real.pi / 180)) = z.re / ‖z‖ := by
    rcases rad with e | e
    · rw [e, Complex.cos_arg z0]
    · rw [e, Real.cos_add_two_pi, Complex.cos_arg z0]
  have s : Real.sin (r.2 * (Real.pi / 180)) = z.im / ‖z‖ := by
    rcases rad with e | e
    · rw [e, Complex.sin_arg]
    · rw [e, Real.sin_add_two_pi, Complex.sin_arg]
  have lo : -180 < 180 / Real.pi * z.arg := by
    have := Complex.neg_pi_lt_arg z
    rw [div_mul_eq_mul_div, lt_div_iff₀ pi0]; linarith
  have hi : 180 / Real.pi * z.arg ≤ 180 := by
    have := Complex.arg_le_pi z
    rw [div_mul_eq_mul_div, div_le_iff₀ pi0]; linarith
  refine ⟨by rw [r1, Real.sq_sqrt pos.le], by rw [r1]; exact s0, ?_, ?_, ?_, ?_⟩
  · rw [r2]; split_ifs <;> linarith
  · rw [r2]; split_ifs <;> linarith
  · rw [c, r1, nz, mul_div_cancel₀ _ s0.ne']; simp only [z]; ring
  · rw [s, r1, nz, mul_div_cancel₀ _ s0.ne']; simp only [z]; ring

/-- C174.  Without wind the direction is 99999. -/
theorem C174_calm (lambda : ℝ) : direction lambda 0 0 = (0, 99999) := by
  simp [direction]

/-- C174.  At the points of the grid speed and direction are those of the components there. -/
theorem C174_grid (common : Int) (U V : Int → Int → ℚ) (li lj : Int) (hi : 4 ≤ li) (hj : 4 ≤ lj) (xla0 xlo0 dlat dlon : ℚ) (h1 : dlat ≠ 0)
    (h2 : dlon ≠ 0) (i j : Int) (hi' : 1 ≤ i ∧ i ≤ li) (hj' : 1 ≤ j ∧ j ≤ lj) :
    vll common (xlo0 + (i - 1) * dlon) (90 - (xla0 + (j - 1) * dlat)) U V li lj xla0 xlo0 dlat dlon =
      some (direction ((xlo0 + (i - 1) * dlon : ℚ) : ℝ) (U i j) (V i j)) := by
  have S := (C172_sll common li lj hi hj xla0 xlo0 dlat dlon h1 h2).1
  rw [vll, S U i j hi' hj', S V i j hi' hj']
  rfl

example : vll 3 (10 + ((4 : Int) - 1) * 2) (90 - (-20 + ((1 : Int) - 1) * 5)) (fun i j => i + j) (fun _ _ => 0) 4 4 (-20) 10 5 2 =
    some (direction ((10 + ((4 : Int) - 1) * 2 : ℚ) : ℝ) (((4 : Int) + (1 : Int) : ℚ) : ℝ) ((0 : ℚ) : ℝ)) :=
  C174_grid 3 _ _ 4 4 (by omega) (by omega) (-20) 10 5 2 (by norm_num) (by norm_num) 4 1 (by omega) (by omega)

example : ((3 : ℝ) ≠ 0 ∨ (4 : ℝ) ≠ 0) ∧ (direction 0 3 4).1 = 5 := by
  refine ⟨Or.inl (by norm_num), ?_⟩
  simp only [direction]
  rw [show (3 : ℝ) ^ 2 + 4 ^ 2 = 5 ^ 2 by norm_num, Real.sqrt_sq (by norm_num)]


end Verif.Vll
