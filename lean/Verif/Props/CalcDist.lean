import Verif.CalcDist
import Mathlib.Tactic
import Mathlib.Geometry.Euclidean.Angle.Unoriented.TriangleInequality
import Mathlib.Analysis.InnerProductSpace.PiL2

namespace Verif.CalcDist

open Real

/-! # C160: distances on the sphere -/

/-- The point of the unit sphere. -/
noncomputable def pt (lat lon : ℝ) : EuclideanSpace ℝ (Fin 3) :=
  !₂[cos (rad lat) * cos (rad lon), cos (rad lat) * sin (rad lon), sin (rad lat)]

theorem pt_inner (lat1 lon1 lat2 lon2 : ℝ) : inner ℝ (pt lat1 lon1) (pt lat2 lon2) =
    cos (rad lat1) * cos (rad lat2) * cos (rad lon1 - rad lon2) + sin (rad lat1) * sin (rad lat2) := by
  simp only [pt, PiLp.inner_apply, Fin.sum_univ_three, cos_sub]
  simp
  ring

theorem pt_norm (lat lon : ℝ) : ‖pt lat lon‖ = 1 := by
  have h : ‖pt lat lon‖ ^ 2 = 1 := by
    rw [← real_inner_self_eq_norm_sq, pt_inner, sub_self, cos_zero]
    have := sin_sq_add_cos_sq (rad lat)
    linarith [this, sq (sin (rad lat)), sq (cos (rad lat))]
  have h0 := norm_nonneg (pt lat lon)
  nlinarith

/-- C160.  The distance is the radius times the angle between the two directions. -/
theorem C160_angle (lat1 lon1 lat2 lon2 : ℝ) :
    dist lat1 lon1 lat2 lon2 = 6370997 * InnerProductGeometry.angle (pt lat1 lon1) (pt lat2 lon2) := by
  rw [dist, arc, R, InnerProductGeometry.angle, pt_norm, pt_norm, pt_inner]
  norm_num

theorem cos_range (lat1 lon1 lat2 lon2 : ℝ) :
    -1 ≤ cos (rad lat1) * cos (rad lat2) * cos (rad lon1 - rad lon2) + sin (rad lat1) * sin (rad lat2) ∧
    cos (rad lat1) * cos (rad lat2) * cos (rad lon1 - rad lon2) + sin (rad lat1) * sin (rad lat2) ≤ 1 := by
  have h := abs_real_inner_le_norm (pt lat1 lon1) (pt lat2 lon2)
  rw [pt_norm, pt_norm, pt_inner, one_mul] at h
  exact abs_le.1 h

/-- **C160**.  Both formulas give the same distance for any two points. -/
theorem C160_same (lat1 lon1 lat2 lon2 : ℝ) : dist2 lat1 lon1 lat2 lon2 = dist lat1 lon1 lat2 lon2 := by
  obtain ⟨h1, h2⟩ := cos_range lat1 lon1 lat2 lon2
  rw [dist, arc]
  generalize hx : cos (rad lat1) * cos (rad lat2) * cos (rad lon1 - rad lon2) + sin (rad lat1) * sin (rad lat2) = x at h1 h2
  have ha : sin ((rad lat2 - rad lat1) * 0.5) * sin ((rad lat2 - rad lat1) * 0.5) +
      cos (rad lat1) * cos (rad lat2) * sin ((rad lon2 - rad lon1) * 0.5) * sin ((rad lon2 - rad lon1) * 0.5) =
      sin (arccos x / 2) ^ 2 := by
    have half : ∀ t : ℝ, sin (t * 0.5) * sin (t * 0.5) = (1 - cos t) / 2 := by
      intro t
      have h2 := cos_two_mul (t / 2)
      rw [mul_div_cancel₀ t (two_ne_zero)] at h2
      have h := sin_sq_add_cos_sq (t / 2)
      rw [show t * 0.5 = t / 2 by norm_num [div_eq_mul_inv]]
      nlinarith
    have half2 : sin (arccos x / 2) ^ 2 = (1 - x) / 2 := by
      have := half (arccos x)
      rw [cos_arccos h1 h2, show arccos x * 0.5 = arccos x / 2 by norm_num [div_eq_mul_inv]] at this
      rw [sq, this]
    rw [half2, mul_assoc (cos (rad lat1) * cos (rad lat2)), half, half, ← hx, cos_sub (rad lat2), ← cos_neg (rad lon2 - rad lon1), neg_sub]
    ring
  simp only [dist2]
  rw [ha, sqrt_sq (sin_nonneg_of_nonneg_of_le_pi (by have := arccos_nonneg x; linarith) (by have := arccos_le_pi x; have := pi_pos; linarith)),
    arcsin_sin (by have := arccos_nonneg x; have := pi_pos; linarith) (by have := arccos_le_pi x; linarith)]
  ring

/-- **C160**.  The distance is a metric on the sphere: between 0 and half the circumference, 0 for equal points only, symmetric,
and no way over a third point is shorter. -/
theorem C160_metric (lat1 lon1 lat2 lon2 lat3 lon3 : ℝ) :
    (0 ≤ dist lat1 lon1 lat2 lon2 ∧ dist lat1 lon1 lat2 lon2 ≤ π * 6370997) ∧
    (dist lat1 lon1 lat2 lon2 = 0 ↔ pt lat1 lon1 = pt lat2 lon2) ∧
    dist lat1 lon1 lat2 lon2 = dist lat2 lon2 lat1 lon1 ∧
    dist lat1 lon1 lat3 lon3 ≤ dist lat1 lon1 lat2 lon2 + dist lat2 lon2 lat3 lon3 := by
  simp only [C160_angle]
  have a0 := InnerProductGeometry.angle_nonneg (pt lat1 lon1) (pt lat2 lon2)
  have a1 := InnerProductGeometry.angle_le_pi (pt lat1 lon1) (pt lat2 lon2)
  have a2 := InnerProductGeometry.angle_le_angle_add_angle (pt lat1 lon1) (pt lat2 lon2) (pt lat3 lon3)
  have n1 : pt lat1 lon1 ≠ 0 := by intro h; have := pt_norm lat1 lon1; rw [h, norm_zero] at this; norm_num at this
  refine ⟨⟨by positivity, by nlinarith⟩, ⟨?_, ?_⟩, by rw [InnerProductGeometry.angle_comm], by nlinarith⟩
  · intro h
    have h0 : InnerProductGeometry.angle (pt lat1 lon1) (pt lat2 lon2) = 0 := by
      rcases mul_eq_zero.1 h with h | h
      · norm_num at h
      · exact h
    obtain ⟨-, r, hr, e⟩ := InnerProductGeometry.angle_eq_zero_iff.1 h0
    have := congrArg norm e
    rw [pt_norm, norm_smul, pt_norm, mul_one, Real.norm_eq_abs, abs_of_pos hr] at this
    rw [e, ← this, one_smul]
  · intro h
    rw [h, InnerProductGeometry.angle_self (h ▸ n1), mul_zero]

theorem rad0 : rad 0 = 0 := by rw [rad, zero_mul]

theorem rad90 : rad 90 = π / 2 := by rw [rad]; ring

/-- A quarter of a circle. -/
theorem arc_equator_pole (x : ℝ) : arc 0 x 90 0 = π / 2 := by simp [arc, rad0, rad90]

example : dist 0 0 90 0 = 6370997 * (π / 2) ∧ dist2 0 0 90 0 = 6370997 * (π / 2) ∧ pt 0 0 ≠ pt 90 0 := by
  have h : dist 0 0 90 0 = 6370997 * (π / 2) := by rw [dist, arc_equator_pole, R]
  refine ⟨h, by rw [C160_same, h], fun e => ?_⟩
  have := (C160_metric 0 0 90 0 0 0).2.1.2 e
  rw [h] at this
  have := pi_pos
  linarith

/-- C160.  The area of `c_ez_calcarea2` is never negative. -/
theorem C160_area_nonneg (p q r s : ℝ × ℝ) : 0 ≤ area2 p q r s := by
  have h : ∀ a b c, 0 ≤ tri2 a b c := by
    intro a b c
    simp only [tri2]
    have : 0 ≤ arctan (√(tan (0.5 * (0.5 * (a + b + c))) * tan (0.5 * (0.5 * (a + b + c) - a)) * tan (0.5 * (0.5 * (a + b + c) - b)) *
        tan (0.5 * (0.5 * (a + b + c) - c)))) := arctan_nonneg.2 (sqrt_nonneg _)
    have hR : 0 ≤ R := by rw [R]; norm_num
    positivity
  simp only [area2]
  exact add_nonneg (h _ _ _) (h _ _ _)

theorem rad120 : rad 120 = 2 * π / 3 := by rw [rad]; ring

theorem arc_equator (x y : ℝ) (h : rad x - rad y = 2 * π / 3 ∨ rad x - rad y = -(2 * π / 3)) : arc 0 x 0 y = 2 * π / 3 := by
  have : cos (rad x - rad y) = cos (2 * π / 3) := by
    rcases h with h | h <;> rw [h]
    rw [cos_neg]
  rw [arc, rad0, this, sin_zero, cos_zero, mul_zero, add_zero, one_mul, one_mul, arccos_cos]
  · have := pi_pos; linarith
  · have := pi_pos; linarith

theorem arc_pole_equator (x : ℝ) : arc 90 0 0 x = π / 2 := by simp [arc, rad0, rad90]

theorem tri_third : tri (2 * π / 3) (π / 2) (π / 2) = π / 3 * R * R ∧ tri (π / 2) (2 * π / 3) (π / 2) = π / 3 * R * R := by
  have s120 : sin (2 * π / 3) = √3 / 2 := by rw [show 2 * π / 3 = π - π / 3 by ring, sin_pi_sub, sin_pi_div_three]
  have s3 : arcsin (√3 / 2) = π / 3 := by
    rw [← sin_pi_div_three, arcsin_sin] <;> have := pi_pos <;> linarith
  constructor
  · simp only [tri, cos_pi_div_two, sin_pi_div_two, zero_mul, sub_zero, zero_div, arccos_zero, one_mul, mul_one, div_one, arcsin_one, s120, s3]
    ring
  · simp only [tri, cos_pi_div_two, sin_pi_div_two, mul_zero, sub_zero, zero_div, arccos_zero, one_mul, mul_one, div_one, arcsin_one, s120, s3]
    ring

theorem tri2_third : tri2 (2 * π / 3) (π / 2) (π / 2) = 2 * π / 3 * R * R ∧ tri2 (π / 2) (π / 2) (2 * π / 3) = 2 * π / 3 * R * R := by
  have hp := pi_pos
  have c12 : 0 < cos (π / 12) := cos_pos_of_mem_Ioo ⟨by linarith, by linarith⟩
  have s12 : 0 < sin (π / 12) := sin_pos_of_pos_of_lt_pi (by linarith) (by linarith)
  have ht : tan (π / 2 - π / 12) * tan (π / 12) = 1 := by
    rw [tan_pi_div_two_sub, inv_mul_cancel₀]
    rw [tan_eq_sin_div_cos]; positivity
  have hr : √(tan (π / 6) * tan (π / 6)) = tan (π / 6) := sqrt_mul_self (by rw [tan_pi_div_six]; positivity)
  constructor
  · simp only [tri2]
    have e1 : 0.5 * (0.5 * (2 * π / 3 + π / 2 + π / 2)) = π / 2 - π / 12 := by ring
    have e2 : 0.5 * (0.5 * (2 * π / 3 + π / 2 + π / 2) - 2 * π / 3) = π / 12 := by ring
    have e3 : 0.5 * (0.5 * (2 * π / 3 + π / 2 + π / 2) - π / 2) = π / 6 := by ring
    rw [e1, e2, e3, ht, one_mul, hr, arctan_tan (by linarith) (by linarith)]
    ring
  · simp only [tri2]
    have e1 : 0.5 * (0.5 * (π / 2 + π / 2 + 2 * π / 3)) = π / 2 - π / 12 := by ring
    have e2 : 0.5 * (0.5 * (π / 2 + π / 2 + 2 * π / 3) - 2 * π / 3) = π / 12 := by ring
    have e3 : 0.5 * (0.5 * (π / 2 + π / 2 + 2 * π / 3) - π / 2) = π / 6 := by ring
    rw [e1, e2, e3, show tan (π / 2 - π / 12) * tan (π / 6) * tan (π / 6) * tan (π / 12) =
      (tan (π / 2 - π / 12) * tan (π / 12)) * (tan (π / 6) * tan (π / 6)) by ring, ht, one_mul, hr, arctan_tan (by linarith) (by linarith)]
    ring

/-- C160.  The four points at longitudes 0 and 120 of the equator, the pole and longitude -120 enclose two thirds of the hemisphere.
`c_ez_calcarea2` finds this; the arc sine in `c_ez_calcarea` takes the angles of 120 degrees at the pole for 60, and half of the area
is lost. -/
theorem C160_area_witness :
    area2 (0, 0) (0, 120) (90, 0) (0, -120) = 2 / 3 * (2 * π * 6370997 ^ 2) ∧
    area (0, 0) (0, 120) (90, 0) (0, -120) = 1 / 3 * (2 * π * 6370997 ^ 2) := by
  have hR : R ≠ 0 := by rw [R]; norm_num
  have hd : ∀ a b c d, dist2 a b c d / R = arc a b c d := by
    intro a b c d; rw [C160_same, dist, mul_div_cancel_left₀ _ hR]
  have rm : rad (-120) = -(2 * π / 3) := by rw [rad]; ring
  have e1 : arc 0 0 0 120 = 2 * π / 3 := arc_equator _ _ (Or.inr (by rw [rad0, rad120]; ring))
  have e2 : arc 0 0 0 (-120) = 2 * π / 3 := arc_equator _ _ (Or.inl (by rw [rad0, rm]; ring))
  have e3 : arc 0 (-120) 0 0 = 2 * π / 3 := arc_equator _ _ (Or.inr (by rw [rad0, rm]; ring))
  simp only [area, area2, hd, e1, e2, e3, arc_equator_pole, arc_pole_equator, tri_third.1, tri_third.2, tri2_third.1, tri2_third.2]
  rw [R]
  constructor <;> ring


end Verif.CalcDist
