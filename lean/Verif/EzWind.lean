import Verif.EzProjLemmas

/-! # Lemmas on winds -/

namespace Verif.EzProj

open Real

theorem fsign_abs (v : ℝ) : fsign |v| v = v := by
  simp only [fsign, abs_abs]
  split
  next h => exact abs_of_nonneg h
  next h => rw [abs_of_neg (not_le.1 h), neg_neg]

/-- Components to cartesian space and back. -/
theorem cartauv_uvacart (u v lon lat : ℝ) : cartauv (uvacart u v lon lat) lon lat = (u, v) := by
  have h1 := sin_sq_add_cos_sq (dar * lon)
  have h2 := sin_sq_add_cos_sq (dar * lat)
  simp only [cartauv, uvacart]
  generalize sin (dar * lon) = a at *
  generalize cos (dar * lon) = b at *
  generalize sin (dar * lat) = c at *
  generalize cos (dar * lat) = d at *
  have e1 : (u * b - v * a * c) * b - (-(u * a) - v * b * c) * a = u := by linear_combination u * h1
  have e2 : (-(u * a) - v * b * c) * b + (u * b - v * a * c) * a = -(v * c) := by linear_combination -(v * c) * h1
  have e3 : sqrt ((-(v * c)) ^ 2 + (v * d) ^ 2) = |v| := by
    have : (-(v * c)) ^ 2 + (v * d) ^ 2 = v ^ 2 := by linear_combination v ^ 2 * h2
    rw [this, sqrt_sq_eq_abs]
  have e4 : v * d * d - -(v * c) * c = v := by linear_combination v * h2
  rw [e1, e2, e3, e4, fsign_abs]

/-- A vector that is tangent to the sphere is recovered from its components. -/
theorem uvacart_cartauv {w : V3} {lon lat : ℝ} (h : dot w (lac lon lat) = 0) :
    uvacart (cartauv w lon lat).1 (cartauv w lon lat).2 lon lat = w := by
  have h1 := sin_sq_add_cos_sq (dar * lon)
  have h2 := sin_sq_add_cos_sq (dar * lat)
  simp only [dot, lac] at h
  simp only [cartauv, uvacart]
  generalize sin (dar * lon) = a at *
  generalize cos (dar * lon) = b at *
  generalize sin (dar * lat) = c at *
  generalize cos (dar * lat) = d at *
  -- the tangent vector has north component `n`
  have hn : fsign (sqrt ((w.x * b + w.y * a) ^ 2 + w.z ^ 2)) (w.z * d - (w.x * b + w.y * a) * c) = w.z * d - (w.x * b + w.y * a) * c := by
    have : (w.x * b + w.y * a) ^ 2 + w.z ^ 2 = (w.z * d - (w.x * b + w.y * a) * c) ^ 2 := by
      linear_combination -((w.x * b + w.y * a) ^ 2 + w.z ^ 2) * h2 + (d * (w.x * b + w.y * a) + c * w.z) * h
    rw [this, sqrt_sq_eq_abs, fsign_abs]
  rw [hn]
  ext <;> simp only []
  · linear_combination w.x * h1 + b * (w.x * b + w.y * a) * h2 - b * d * h
  · linear_combination w.y * h1 + a * (w.x * b + w.y * a) * h2 - a * d * h
  · linear_combination w.z * h2 - c * h

/-- A wind is tangent to the sphere. -/
theorem uvacart_tangent (u v lon lat : ℝ) : dot (uvacart u v lon lat) (lac lon lat) = 0 := by
  have h1 := sin_sq_add_cos_sq (dar * lon)
  simp only [dot, lac, uvacart]
  linear_combination -(v * cos (dar * lat) * sin (dar * lat)) * h1

/-- The length of a wind vector. -/
theorem uvacart_norm (u v lon lat : ℝ) : dot (uvacart u v lon lat) (uvacart u v lon lat) = u ^ 2 + v ^ 2 := by
  have h1 := sin_sq_add_cos_sq (dar * lon)
  have h2 := sin_sq_add_cos_sq (dar * lat)
  simp only [dot, uvacart]
  linear_combination (u ^ 2 + v ^ 2 * sin (dar * lat) ^ 2) * h1 + v ^ 2 * h2

theorem atan2_of_polar {r t : ℝ} (hr : 0 < r) : ∃ k : ℤ, rad * atan2 (sin (t * dar) * r) (cos (t * dar) * r) = t + 360 * k := by
  have hc := atan2_cos (cos (t * dar) * r) (sin (t * dar) * r)
  have hs := atan2_sin (cos (t * dar) * r) (sin (t * dar) * r)
  have e : sqrt ((cos (t * dar) * r) ^ 2 + (sin (t * dar) * r) ^ 2) = r := by
    have : (cos (t * dar) * r) ^ 2 + (sin (t * dar) * r) ^ 2 = r ^ 2 := by
      have := sin_sq_add_cos_sq (t * dar); linear_combination r ^ 2 * this
    rw [this, sqrt_sq hr.le]
  rw [e, mul_comm] at hc hs
  have hc' := mul_right_cancel₀ hr.ne' hc
  have hs' := mul_right_cancel₀ hr.ne' hs
  rw [mul_comm rad]
  apply mod_of_cos_sin
  · rw [mul_rad_dar, hc', mul_comm]
  · rw [mul_rad_dar, hs', mul_comm]

/-- The angle of the components `uu`, `vv` counted as `llwfgdw` does: the cases `uu = 0` apart. -/
noncomputable def wang (uu vv : ℝ) : ℝ := if uu = 0 then (if vv ≥ 0 then 90 else -90) else rad * atan2 vv uu

theorem wang_polar (u v : ℝ) :
    cos (wang u v * dar) * sqrt (u * u + v * v) = u ∧ sin (wang u v * dar) * sqrt (u * u + v * v) = v := by
  simp only [wang]
  split
  next hu =>
    subst hu
    have e : sqrt (0 * 0 + v * v) = |v| := by rw [zero_mul, zero_add, sqrt_mul_self_eq_abs]
    rw [e]
    split
    next hv => rw [mul_comm 90, dar_90, cos_pi_div_two, sin_pi_div_two, abs_of_nonneg hv]; simp
    next hv =>
      have e : (-90 : ℝ) * dar = -(π / 2) := by rw [← dar_90]; ring
      rw [e, cos_neg, sin_neg, cos_pi_div_two, sin_pi_div_two, abs_of_neg (not_le.1 hv)]; simp
  next hu =>
    have e : rad * atan2 v u * dar = atan2 v u := by have := dar_mul_rad; linear_combination atan2 v u * this
    rw [e, ← pow_two, ← pow_two]
    have hc := atan2_cos u v
    have hs := atan2_sin u v
    constructor <;> linarith

/-- The angle that a direction of 0 stands for in the formula of each grid type. -/
noncomputable def base (t : Grtyp) (xg4 xlon : ℝ) : ℝ :=
  match t with
  | .N => xlon + xg4
  | .S => 180 - xlon + xg4
  | _ => 270

/-- `gdwfllw` in one formula. -/
theorem gdwfllw_eq {t : Grtyp} (ht : t ≠ .other) (xg4 xlon z1 z2 : ℝ) :
    gdwfllw t xg4 xlon z1 z2 = (cos ((base t xg4 xlon - z2) * dar) * z1, sin ((base t xg4 xlon - z2) * dar) * z1) := by
  cases t <;> first | exact absurd rfl ht | rfl

/-- `llwfgdw` in one formula: the direction is in `[0, 360)` and is the base minus the angle. -/
theorem llwfgdw_eq {t : Grtyp} (ht : t ≠ .other) (xg4 xlon u v : ℝ) :
    (llwfgdw t xg4 xlon u v).1 = sqrt (u * u + v * v) ∧
    0 ≤ (llwfgdw t xg4 xlon u v).2 ∧ (llwfgdw t xg4 xlon u v).2 < 360 ∧
    (sqrt (u * u + v * v) ≠ 0 → ∃ k : ℤ, (llwfgdw t xg4 xlon u v).2 = base t xg4 xlon - wang u v + 360 * k) ∧
    (sqrt (u * u + v * v) = 0 → (llwfgdw t xg4 xlon u v).2 = 0) := by
  have fin : ∀ d : ℝ, 0 ≤ amod (amod d 360 + 360) 360 ∧ amod (amod d 360 + 360) 360 < 360 ∧
      ∃ k : ℤ, amod (amod d 360 + 360) 360 = d + 360 * k := by
    intro d
    have b := amod_bounds d
    obtain ⟨k, hk⟩ := amod_eq d
    obtain ⟨l, hl⟩ := amod_eq (amod d 360 + 360)
    refine ⟨amod_nonneg (by linarith), (amod_bounds _).2, k + l + 1, ?_⟩
    rw [hl, hk]; push_cast; ring
  have z : amod (amod 0 360 + 360) 360 = 0 := by
    obtain ⟨h1, h2, k, hk⟩ := fin 0
    exact eq_of_mod le_rfl (by norm_num) h1 h2 hk
  have key : ∃ d, llwfgdw t xg4 xlon u v = (sqrt (u * u + v * v), amod (amod d 360 + 360) 360) ∧
      (sqrt (u * u + v * v) ≠ 0 → ∃ k : ℤ, d = base t xg4 xlon - wang u v + 360 * k) ∧ (sqrt (u * u + v * v) = 0 → d = 0) := by
    have aux : ∀ s : Grtyp, s = t → ∃ d, llwfgdw s xg4 xlon u v = (sqrt (u * u + v * v), amod (amod d 360 + 360) 360) ∧
      (sqrt (u * u + v * v) ≠ 0 → ∃ k : ℤ, d = base s xg4 xlon - wang u v + 360 * k) ∧ (sqrt (u * u + v * v) = 0 → d = 0) := by
      intro s hs
      cases s <;> first
        | exact absurd hs.symm ht
        | (refine ⟨_, rfl, ?_, ?_⟩
           · intro h0
             simp only [h0, if_false, base, wang]
             by_cases hu : u = 0
             · by_cases hv : v ≥ 0
               · simp only [hu, hv, if_true]; exact ⟨0, by push_cast; ring⟩
               · simp only [hu, hv, if_true, if_false]
                 first | exact ⟨0, by push_cast; ring1⟩ | exact ⟨-1, by push_cast; ring1⟩
             · simp only [hu, if_false]; exact ⟨0, by push_cast; ring⟩
           · intro h0
             simp only [h0, if_true])
    exact aux t rfl
  obtain ⟨d, hd, h1, h2⟩ := key
  obtain ⟨f1, f2, k, hk⟩ := fin d
  rw [hd]
  refine ⟨rfl, f1, f2, ?_, ?_⟩
  · intro h0
    obtain ⟨l, hl⟩ := h1 h0
    exact ⟨l + k, by rw [hk, hl]; push_cast; ring⟩
  · intro h0
    simp only [h2 h0, z]

end Verif.EzProj
