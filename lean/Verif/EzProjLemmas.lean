import Verif.EzProj
import Mathlib.LinearAlgebra.Matrix.NonsingularInverse

/-! # Lemmas on rotated and polar stereographic coordinates -/

namespace Verif.EzProj

open Real

/-! ## Angles -/

theorem dar_mul_rad : dar * rad = 1 := by
  have := pi_ne_zero
  simp only [dar, rad]; field_simp

theorem mul_rad_dar (x : ℝ) : dar * (x * rad) = x := by
  have := dar_mul_rad
  linear_combination x * this

theorem dar_pos : 0 < dar := by simp only [dar]; positivity
theorem rad_pos : 0 < rad := by simp only [rad]; positivity

theorem dar_180 : dar * 180 = π := by simp only [dar]; field_simp
theorem dar_360 : dar * 360 = 2 * π := by simp only [dar]; field_simp; norm_num
theorem dar_90 : dar * 90 = π / 2 := by simp only [dar]; field_simp; norm_num
theorem pi_rad : π * rad = 180 := by have := pi_ne_zero; simp only [rad]; field_simp

theorem amod_eq (x : ℝ) : ∃ k : ℤ, amod x 360 = x + 360 * k := by
  simp only [amod]
  split
  · exact ⟨-⌊x / 360⌋, by push_cast; ring⟩
  · exact ⟨-⌈x / 360⌉, by push_cast; ring⟩

theorem amod_bounds (x : ℝ) : -360 < amod x 360 ∧ amod x 360 < 360 := by
  simp only [amod]
  split
  · have h1 := Int.floor_le (x / 360)
    have h2 := Int.lt_floor_add_one (x / 360)
    constructor <;> linarith
  · have h1 := Int.le_ceil (x / 360)
    have h2 := Int.ceil_lt_add_one (x / 360)
    constructor <;> linarith

theorem amod_nonneg {x : ℝ} (h : 0 ≤ x) : 0 ≤ amod x 360 := by
  have h0 : 0 ≤ x / 360 := by positivity
  simp only [amod, h0, if_true]
  have h1 := Int.floor_le (x / 360)
  linarith

/-- Two numbers of `[0, 360)` that differ by a multiple of 360 are equal. -/
theorem eq_of_mod {x y : ℝ} (hx : 0 ≤ x) (hx' : x < 360) (hy : 0 ≤ y) (hy' : y < 360) {k : ℤ} (h : y = x + 360 * k) : y = x := by
  have h1 : (-1 : ℝ) < k := by linarith
  have h2 : (k : ℝ) < 1 := by linarith
  have h3 : -1 < k := by exact_mod_cast h1
  have h4 : k < 1 := by exact_mod_cast h2
  have : k = 0 := by omega
  subst this
  simpa using h

/-- Two angles with the same sine and cosine differ by a multiple of 360 degrees. -/
theorem mod_of_cos_sin {x y : ℝ} (hc : cos (dar * x) = cos (dar * y)) (hs : sin (dar * x) = sin (dar * y)) :
    ∃ k : ℤ, x = y + 360 * k := by
  have h : ((dar * x : ℝ) : Real.Angle) = ((dar * y : ℝ) : Real.Angle) := Real.Angle.cos_sin_inj hc hs
  obtain ⟨k, hk⟩ := Real.Angle.angle_eq_iff_two_pi_dvd_sub.1 h
  refine ⟨k, ?_⟩
  have hd := dar_pos
  have h3 : dar * x - dar * y = dar * 360 * k := by rw [dar_360]; exact hk
  have : dar * (x - y - 360 * k) = 0 := by linear_combination h3
  rcases mul_eq_zero.1 this with h | h
  · exact absurd h hd.ne'
  · linarith

theorem cos_add_mod (x : ℝ) (k : ℤ) : cos (dar * (x + 360 * k)) = cos (dar * x) := by
  have : dar * (x + 360 * k) = dar * x + k * (2 * π) := by rw [← dar_360]; ring
  rw [this, cos_add_int_mul_two_pi]

theorem sin_add_mod (x : ℝ) (k : ℤ) : sin (dar * (x + 360 * k)) = sin (dar * x) := by
  have : dar * (x + 360 * k) = dar * x + k * (2 * π) := by rw [← dar_360]; ring
  rw [this, sin_add_int_mul_two_pi]

theorem atan2_cos (x y : ℝ) : sqrt (x ^ 2 + y ^ 2) * cos (atan2 y x) = x := by
  have h := Complex.norm_mul_cos_arg (⟨x, y⟩ : ℂ)
  rwa [Complex.norm_def, Complex.normSq_mk, ← pow_two, ← pow_two] at h

theorem atan2_sin (x y : ℝ) : sqrt (x ^ 2 + y ^ 2) * sin (atan2 y x) = y := by
  have h := Complex.norm_mul_sin_arg (⟨x, y⟩ : ℂ)
  rwa [Complex.norm_def, Complex.normSq_mk, ← pow_two, ← pow_two] at h

theorem cos_nonneg_of_lat {lat : ℝ} (h : -90 ≤ lat) (h' : lat ≤ 90) : 0 ≤ cos (dar * lat) := by
  have hd := dar_pos
  apply cos_nonneg_of_neg_pi_div_two_le_of_le
  · have := mul_le_mul_of_nonneg_left h hd.le
    have h9 := dar_90; linarith
  · have := mul_le_mul_of_nonneg_left h' hd.le
    have h9 := dar_90; linarith

theorem cos_pos_of_lat {lat : ℝ} (h : -90 < lat) (h' : lat < 90) : 0 < cos (dar * lat) := by
  have hd := dar_pos
  apply cos_pos_of_mem_Ioo
  constructor
  · have := mul_lt_mul_of_pos_left h hd
    have h9 := dar_90; linarith
  · have := mul_lt_mul_of_pos_left h' hd
    have h9 := dar_90; linarith

theorem arcsin_lat {lat : ℝ} (h : -90 ≤ lat) (h' : lat ≤ 90) : arcsin (sin (dar * lat)) * rad = lat := by
  have hd := dar_pos
  rw [arcsin_sin]
  · have := dar_mul_rad
    linear_combination lat * this
  · have := mul_le_mul_of_nonneg_left h hd.le
    have h9 := dar_90; linarith
  · have := mul_le_mul_of_nonneg_left h' hd.le
    have h9 := dar_90; linarith

/-! ## Cartesian coordinates -/

/-- Scalar product. -/
def dot (p q : V3) : ℝ := p.x * q.x + p.y * q.y + p.z * q.z

theorem lac_unit (lon lat : ℝ) : dot (lac lon lat) (lac lon lat) = 1 := by
  simp only [dot, lac]
  have h1 := sin_sq_add_cos_sq (dar * lon)
  have h2 := sin_sq_add_cos_sq (dar * lat)
  linear_combination (cos (dar * lat)) ^ 2 * h1 + h2

theorem z_bounds {p : V3} (h : dot p p = 1) : -1 ≤ p.z ∧ p.z ≤ 1 := by
  simp only [dot] at h
  constructor <;> nlinarith [sq_nonneg p.x, sq_nonneg p.y, sq_nonneg (p.z - 1), sq_nonneg (p.z + 1)]

theorem clamp_eq {z : ℝ} (h : -1 ≤ z) (h' : z ≤ 1) : max (-1) (min 1 z) = z := by
  rw [min_eq_right h', max_eq_right h]

/-- What `cal` returns for a point of the sphere: a longitude of `[0, 360)` and a latitude that give the
point. -/
theorem cal_spec {p : V3} (h : dot p p = 1) :
    0 ≤ (cal p).1 ∧ (cal p).1 < 360 ∧ -90 ≤ (cal p).2 ∧ (cal p).2 ≤ 90 ∧ lac (cal p).1 (cal p).2 = p := by
  obtain ⟨hz1, hz2⟩ := z_bounds h
  have hr := rad_pos
  have hlat : (cal p).2 = arcsin p.z * rad := by simp only [cal, clamp_eq hz1 hz2]
  have hb := amod_bounds (atan2 p.y p.x * rad)
  have hlon : 0 ≤ (cal p).1 ∧ (cal p).1 < 360 ∧ ∃ k : ℤ, (cal p).1 = atan2 p.y p.x * rad + 360 * k := by
    obtain ⟨k, hk⟩ := amod_eq (atan2 p.y p.x * rad)
    simp only [cal]
    split
    · refine ⟨by linarith, by linarith, k + 1, ?_⟩
      rw [hk]; push_cast; ring
    · exact ⟨by linarith, by linarith, k, hk⟩
  obtain ⟨l1, l2, k, hk⟩ := hlon
  have hpr := pi_rad
  refine ⟨l1, l2, ?_, ?_, ?_⟩
  · rw [hlat]
    have := mul_le_mul_of_nonneg_right (neg_pi_div_two_le_arcsin p.z) hr.le
    linarith
  · rw [hlat]
    have := mul_le_mul_of_nonneg_right (arcsin_le_pi_div_two p.z) hr.le
    linarith
  · have hs : sin (dar * (cal p).2) = p.z := by rw [hlat, mul_rad_dar, sin_arcsin hz1 hz2]
    have hc : cos (dar * (cal p).2) = sqrt (p.x ^ 2 + p.y ^ 2) := by
      rw [hlat, mul_rad_dar, cos_arcsin]
      congr 1
      simp only [dot] at h
      linear_combination -h
    have c1 : cos (dar * (cal p).1) = cos (atan2 p.y p.x) := by rw [hk, cos_add_mod, mul_rad_dar]
    have s1 : sin (dar * (cal p).1) = sin (atan2 p.y p.x) := by rw [hk, sin_add_mod, mul_rad_dar]
    ext
    · simp only [lac, hc, c1, atan2_cos]
    · simp only [lac, hc, s1, atan2_sin]
    · simp only [lac, hs]

/-- Two positions of the same point, away from the poles. -/
theorem lac_inj {lon lat lon' lat' : ℝ} (h1 : -90 < lat) (h2 : lat < 90) (h3 : -90 ≤ lat') (h4 : lat' ≤ 90)
    (h : lac lon' lat' = lac lon lat) : lat' = lat ∧ ∃ k : ℤ, lon' = lon + 360 * k := by
  have hx : cos (dar * lat') * cos (dar * lon') = cos (dar * lat) * cos (dar * lon) := congrArg V3.x h
  have hy : cos (dar * lat') * sin (dar * lon') = cos (dar * lat) * sin (dar * lon) := congrArg V3.y h
  have hz : sin (dar * lat') = sin (dar * lat) := congrArg V3.z h
  have hl : lat' = lat := by
    have e1 := arcsin_lat h1.le h2.le
    have e2 := arcsin_lat h3 h4
    rw [← e1, ← e2, hz]
  subst hl
  have hp := cos_pos_of_lat h1 h2
  exact ⟨rfl, mod_of_cos_sin (mul_left_cancel₀ hp.ne' hx) (mul_left_cancel₀ hp.ne' hy)⟩

/-- The latitude is recovered at the poles as well. -/
theorem lac_inj_lat {lon lat lon' lat' : ℝ} (h1 : -90 ≤ lat) (h2 : lat ≤ 90) (h3 : -90 ≤ lat') (h4 : lat' ≤ 90)
    (h : lac lon' lat' = lac lon lat) : lat' = lat := by
  have hz : sin (dar * lat') = sin (dar * lat) := congrArg V3.z h
  rw [← arcsin_lat h1 h2, ← arcsin_lat h3 h4, hz]

/-! ## The rotation -/

/-- The rows are orthonormal. -/
structure Orth (m : M33) : Prop where
  n1 : dot m.r1 m.r1 = 1
  n2 : dot m.r2 m.r2 = 1
  n3 : dot m.r3 m.r3 = 1
  o12 : dot m.r1 m.r2 = 0
  o13 : dot m.r1 m.r3 = 0
  o23 : dot m.r2 m.r3 = 0

theorem Orth.transpose {m : M33} (h : Orth m) : Orth (transpose m) := by
  obtain ⟨n1, n2, n3, o12, o13, o23⟩ := h
  simp only [dot] at n1 n2 n3 o12 o13 o23
  let A : Matrix (Fin 3) (Fin 3) ℝ := !![m.r1.x, m.r1.y, m.r1.z; m.r2.x, m.r2.y, m.r2.z; m.r3.x, m.r3.y, m.r3.z]
  have hA : A * A.transpose = 1 := by
    ext i j
    fin_cases i <;> fin_cases j <;> simp [A, Matrix.mul_apply, Fin.sum_univ_three] <;> linarith
  have hB : A.transpose * A = 1 := mul_eq_one_comm.1 hA
  have e := fun i j => congrFun (congrFun hB i) j
  have e00 := e 0 0
  have e11 := e 1 1
  have e22 := e 2 2
  have e01 := e 0 1
  have e02 := e 0 2
  have e12 := e 1 2
  simp [A, Matrix.mul_apply, Fin.sum_univ_three] at e00 e11 e22 e01 e02 e12
  constructor <;> simp only [dot, EzProj.transpose] <;> linarith

theorem transpose_transpose (m : M33) : transpose (transpose m) = m := rfl

/-- Applying the transpose undoes an orthonormal matrix. -/
theorem Orth.undo {m : M33} (h : Orth m) (p : V3) : mxm (EzProj.transpose m) (mxm m p) = p := by
  obtain ⟨n1, n2, n3, o12, o13, o23⟩ := h.transpose
  simp only [dot, EzProj.transpose] at n1 n2 n3 o12 o13 o23
  ext <;> simp only [mxm, EzProj.transpose]
  · linear_combination p.x * n1 + p.y * o12 + p.z * o13
  · linear_combination p.x * o12 + p.y * n2 + p.z * o23
  · linear_combination p.x * o13 + p.y * o23 + p.z * n3

/-- It preserves scalar products. -/
theorem Orth.dot {m : M33} (h : Orth m) (p q : V3) : dot (mxm m p) (mxm m q) = EzProj.dot p q := by
  obtain ⟨n1, n2, n3, o12, o13, o23⟩ := h.transpose
  simp only [EzProj.dot, EzProj.transpose] at n1 n2 n3 o12 o13 o23
  simp only [EzProj.dot, mxm]
  linear_combination p.x * q.x * n1 + p.y * q.y * n2 + p.z * q.z * n3 + (p.x * q.y + p.y * q.x) * o12
    + (p.x * q.z + p.z * q.x) * o13 + (p.y * q.z + p.z * q.y) * o23

/-- The matrix for two unit vectors that are not parallel. -/
theorem crotV_cases {p q : V3} (hp : dot p p = 1) (hq : dot q q = 1) {a : ℝ} (ha : dot p q = a) :
    (a ^ 2 = 1 ∧ crotV p q = none) ∨
    (∃ b, 0 < b ∧ b ^ 2 = 1 - a ^ 2 ∧ ∃ r : M33,
      r = ⟨⟨-p.x, -p.y, -p.z⟩, ⟨(a * p.x - q.x) / b, (a * p.y - q.y) / b, (a * p.z - q.z) / b⟩,
        ⟨(p.y * q.z - q.y * p.z) / b, (q.x * p.z - p.x * q.z) / b, (p.x * q.y - q.x * p.y) / b⟩⟩ ∧
      crotV p q = some (r, transpose r) ∧ Orth r) := by
  simp only [dot] at hp hq ha
  have hb2 : (p.y * q.z - q.y * p.z) ^ 2 + (q.x * p.z - p.x * q.z) ^ 2 + (p.x * q.y - q.x * p.y) ^ 2 = 1 - a ^ 2 := by
    rw [← ha]
    linear_combination (q.x * q.x + q.y * q.y + q.z * q.z) * hp + hq
  have hc2 : p.x ^ 2 + p.y ^ 2 + p.z ^ 2 = 1 := by linear_combination hp
  have hnn : 0 ≤ 1 - a ^ 2 := by rw [← hb2]; positivity
  by_cases h1 : a ^ 2 = 1
  · left
    refine ⟨h1, ?_⟩
    have hb0 : sqrt ((p.y * q.z - q.y * p.z) ^ 2 + (q.x * p.z - p.x * q.z) ^ 2 + (p.x * q.y - q.x * p.y) ^ 2) = 0 := by
      rw [hb2, h1]; simp
    simp only [crotV, hb0, true_or, if_true]
  · right
    have hpos : 0 < 1 - a ^ 2 := lt_of_le_of_ne hnn (fun e => h1 (by linarith))
    obtain ⟨b, hb⟩ : ∃ b, sqrt (1 - a ^ 2) = b := ⟨_, rfl⟩
    have hb' : 0 < b := by rw [← hb]; exact sqrt_pos.2 hpos
    have hbb : b ^ 2 = 1 - a ^ 2 := by rw [← hb]; exact sq_sqrt hnn
    have hbi : b ≠ 0 := hb'.ne'
    have eb : sqrt ((p.y * q.z - q.y * p.z) ^ 2 + (q.x * p.z - p.x * q.z) ^ 2 + (p.x * q.y - q.x * p.y) ^ 2) = b := by
      rw [hb2, hb]
    have ec : sqrt (p.x ^ 2 + p.y ^ 2 + p.z ^ 2) = 1 := by rw [hc2, sqrt_one]
    have ed2 : ((a * p.x - q.x) / b) ^ 2 + ((a * p.y - q.y) / b) ^ 2 + ((a * p.z - q.z) / b) ^ 2 = 1 := by
      field_simp
      rw [hbb, ← ha]
      linear_combination (p.x * q.x + p.y * q.y + p.z * q.z) ^ 2 * hp + hq
    have ed : sqrt (((a * p.x - q.x) / b) ^ 2 + ((a * p.y - q.y) / b) ^ 2 + ((a * p.z - q.z) / b) ^ 2) = 1 := by
      rw [ed2, sqrt_one]
    refine ⟨b, hb', hbb, _, rfl, ?_, ?_⟩
    · simp only [crotV, ha, eb, ec, ed, hbi, one_ne_zero, or_self, if_false, div_one]
    · constructor <;> simp only [dot]
      · linear_combination hp
      · rw [← ed2]; ring
      · field_simp
        rw [hbb, ← hb2]; ring
      · field_simp
        rw [← ha]
        linear_combination -(p.x * q.x + p.y * q.y + p.z * q.z) * hp
      · field_simp; ring
      · field_simp; ring

/-! ## Polar stereographic coordinates -/

/-- The longitude in map coordinates that `vllfxy` computes before it subtracts `dgrw`. -/
noncomputable def mapLon (x1 y1 : ℝ) : ℝ :=
  let rlon := if x1 = 0 then fsign 90 y1 else arctan (y1 / x1) * rad
  if x1 < 0 then rlon + fsign 180 y1 else rlon

theorem sqrt_scale {x y : ℝ} (hx : x ≠ 0) : sqrt (x ^ 2 + y ^ 2) = |x| * sqrt (1 + (y / x) ^ 2) := by
  have : x ^ 2 + y ^ 2 = x ^ 2 * (1 + (y / x) ^ 2) := by field_simp
  rw [this, sqrt_mul (sq_nonneg x), sqrt_sq_eq_abs]

theorem arctan_polar {x y : ℝ} (hx : x ≠ 0) :
    sqrt (x ^ 2 + y ^ 2) * cos (arctan (y / x)) = |x| ∧ sqrt (x ^ 2 + y ^ 2) * sin (arctan (y / x)) = |x| * (y / x) := by
  rw [sqrt_scale hx, cos_arctan, sin_arctan]
  have h : 0 < sqrt (1 + (y / x) ^ 2) := sqrt_pos.2 (by positivity)
  have h' := h.ne'
  constructor
  · field_simp
  · rw [mul_assoc, mul_div_cancel₀ _ h']

theorem mapLon_polar (x y : ℝ) :
    sqrt (x ^ 2 + y ^ 2) * cos (dar * mapLon x y) = x ∧ sqrt (x ^ 2 + y ^ 2) * sin (dar * mapLon x y) = y := by
  by_cases hx : x = 0
  · subst hx
    simp only [mapLon, if_true, lt_irrefl, if_false, fsign]
    have h90 : |(90 : ℝ)| = 90 := by norm_num
    split
    next hy =>
      rw [h90, dar_90, cos_pi_div_two, sin_pi_div_two]
      simp [sqrt_sq hy]
    next hy =>
      have e : dar * -90 = -(π / 2) := by rw [← dar_90]; ring
      rw [h90, e, cos_neg, sin_neg, cos_pi_div_two, sin_pi_div_two]
      have e2 : sqrt (0 ^ 2 + y ^ 2) = -y := by
        rw [zero_pow (by decide), zero_add, sqrt_sq_eq_abs, abs_of_neg (not_le.1 hy)]
      rw [e2]; constructor <;> ring
  · obtain ⟨hc, hs⟩ := arctan_polar (y := y) hx
    by_cases hn : x < 0
    · have ha : |x| = -x := abs_of_neg hn
      rw [ha] at hc hs
      have hs' : -x * (y / x) = -y := by field_simp
      rw [hs'] at hs
      have h180 : |(180 : ℝ)| = 180 := by norm_num
      simp only [mapLon, hx, hn, if_true, if_false, fsign, h180]
      split
      · have e : dar * (arctan (y / x) * rad + 180) = arctan (y / x) + π := by rw [mul_add, mul_rad_dar, dar_180]
        rw [e, cos_add_pi, sin_add_pi]; constructor <;> linarith
      · have e : dar * (arctan (y / x) * rad + -180) = arctan (y / x) - π := by
          rw [mul_add, mul_rad_dar, mul_neg, dar_180]; ring
        rw [e, cos_sub_pi, sin_sub_pi]; constructor <;> linarith
    · have hp : 0 < x := lt_of_le_of_ne (not_lt.1 hn) (Ne.symm hx)
      have ha : |x| = x := abs_of_pos hp
      rw [ha] at hc hs
      have hs' : x * (y / x) = y := by field_simp
      rw [hs'] at hs
      simp only [mapLon, hx, hn, if_false, mul_rad_dar]
      exact ⟨hc, hs⟩

theorem mapLon_bounds (x y : ℝ) : -180 < mapLon x y ∧ mapLon x y ≤ 180 := by
  have hr := rad_pos
  have hpr := pi_rad
  have b1 : -90 < arctan (y / x) * rad := by
    have := mul_lt_mul_of_pos_right (neg_pi_div_two_lt_arctan (y / x)) hr; linarith
  have b2 : arctan (y / x) * rad < 90 := by
    have := mul_lt_mul_of_pos_right (arctan_lt_pi_div_two (y / x)) hr; linarith
  have h90 : |(90 : ℝ)| = 90 := by norm_num
  have h180 : |(180 : ℝ)| = 180 := by norm_num
  by_cases hx : x = 0
  · subst hx
    simp only [mapLon, if_true, lt_irrefl, if_false, fsign, h90]
    split <;> constructor <;> norm_num
  · by_cases hn : x < 0
    · simp only [mapLon, hx, hn, if_true, if_false, fsign, h180]
      split
      next hy =>
        have : arctan (y / x) * rad ≤ 0 := by
          have h0 : y / x ≤ 0 := div_nonpos_of_nonneg_of_nonpos hy hn.le
          have : arctan (y / x) ≤ 0 := by
            rw [← arctan_zero]; exact arctan_strictMono.monotone h0
          exact mul_nonpos_of_nonpos_of_nonneg this hr.le
        constructor <;> linarith
      next hy =>
        have : 0 < arctan (y / x) * rad := by
          have h0 : 0 < y / x := div_pos_of_neg_of_neg (not_le.1 hy) hn
          have : 0 < arctan (y / x) := by
            rw [← arctan_zero]; exact arctan_strictMono h0
          exact mul_pos this hr
        constructor <;> linarith
    · simp only [mapLon, hx, hn, if_false]
      constructor <;> linarith

/-- `vllfxy` in terms of `mapLon`. -/
theorem vllfxy_eq (g : Ps) (x y : ℝ) :
    vllfxy g x y =
      let m := mapLon (x - g.pi) (y - g.pj) - g.dgrw
      let m := if m < 0 then m + 360 else m
      let re2 := reOf g.d60 ^ 2
      let r2 := (x - g.pi) * (x - g.pi) + (y - g.pj) * (y - g.pj)
      let l := arcsin (max (-1) (min ((re2 - r2) / (re2 + r2)) 1)) * rad
      if g.nhem = 2 then (-l, if -m < 0 then -m + 360 else -m) else (l, m) := by
  rfl

theorem lift_mod (m : ℝ) : ∃ k : ℤ, (if m < 0 then m + 360 else m) = m + 360 * k := by
  split
  · exact ⟨1, by push_cast; ring⟩
  · exact ⟨0, by push_cast; ring⟩

theorem clamp_eq' {z : ℝ} (h : -1 ≤ z) (h' : z ≤ 1) : max (-1) (min z 1) = z := by
  rw [min_eq_left h', max_eq_right h]

/-- The sine of the latitude at distance `r` from the pole, and back. -/
theorem ratio_bounds {e r : ℝ} (he : 0 < e) (hr : 0 ≤ r) : -1 < (e - r) / (e + r) ∧ (e - r) / (e + r) ≤ 1 := by
  have h : 0 < e + r := by linarith
  constructor
  · rw [lt_div_iff₀ h]; linarith
  · rw [div_le_iff₀ h]; linarith

theorem ratio_sqrt {re r2 : ℝ} (he : 0 < re) (hr : 0 ≤ r2) :
    re * sqrt ((1 - (re ^ 2 - r2) / (re ^ 2 + r2)) / (1 + (re ^ 2 - r2) / (re ^ 2 + r2))) = sqrt r2 := by
  have h : 0 < re ^ 2 + r2 := by positivity
  have e : (1 - (re ^ 2 - r2) / (re ^ 2 + r2)) / (1 + (re ^ 2 - r2) / (re ^ 2 + r2)) = r2 / re ^ 2 := by
    have h1 : 1 - (re ^ 2 - r2) / (re ^ 2 + r2) = 2 * r2 / (re ^ 2 + r2) := by field_simp; ring
    have h2 : 1 + (re ^ 2 - r2) / (re ^ 2 + r2) = 2 * re ^ 2 / (re ^ 2 + r2) := by field_simp; ring
    rw [h1, h2]; field_simp
  rw [e, sqrt_div hr, sqrt_sq he.le]
  field_simp

theorem sin_gt {lat : ℝ} (h : -90 < lat) (h' : lat ≤ 90) : -1 < sin (dar * lat) := by
  have hd := dar_pos
  have h9 := dar_90
  have e : sin (-(π / 2)) = -1 := by rw [sin_neg, sin_pi_div_two]
  rw [← e]
  apply sin_lt_sin_of_lt_of_le_pi_div_two le_rfl
  · have := mul_le_mul_of_nonneg_left h' hd.le; linarith
  · have := mul_lt_mul_of_pos_left h hd; linarith

theorem reOf_pos {d : ℝ} (h : 0 < d) : 0 < reOf d := by simp only [reOf]; positivity

/-- The common part of both hemispheres: `s` is the sine of the latitude, `t` the angle. -/
theorem polar_lat {re s : ℝ} (he : 0 < re) (h1 : -1 < s) (h2 : s ≤ 1) :
    let r := re * sqrt ((1 - s) / (1 + s))
    (re ^ 2 - r ^ 2) / (re ^ 2 + r ^ 2) = s := by
  intro r
  have hp : 0 < 1 + s := by linarith
  have hn : 0 ≤ (1 - s) / (1 + s) := div_nonneg (by linarith) hp.le
  have hr : r ^ 2 = re ^ 2 * ((1 - s) / (1 + s)) := by simp only [r, mul_pow, sq_sqrt hn]
  rw [hr]
  have e1 : re ^ 2 - re ^ 2 * ((1 - s) / (1 + s)) = re ^ 2 * (2 * s) / (1 + s) := by field_simp; ring
  have e2 : re ^ 2 + re ^ 2 * ((1 - s) / (1 + s)) = re ^ 2 * 2 / (1 + s) := by field_simp; ring
  rw [e1, e2]; field_simp

/-- The map longitude of a point given in polar coordinates. -/
theorem mapLon_of_polar {r t : ℝ} (hr : 0 < r) : ∃ k : ℤ, mapLon (r * cos (dar * t)) (r * sin (dar * t)) = t + 360 * k := by
  obtain ⟨hc, hs⟩ := mapLon_polar (r * cos (dar * t)) (r * sin (dar * t))
  have e : sqrt ((r * cos (dar * t)) ^ 2 + (r * sin (dar * t)) ^ 2) = r := by
    have : (r * cos (dar * t)) ^ 2 + (r * sin (dar * t)) ^ 2 = r ^ 2 := by
      have := sin_sq_add_cos_sq (dar * t); linear_combination r ^ 2 * this
    rw [this, sqrt_sq hr.le]
  rw [e] at hc hs
  exact mod_of_cos_sin (mul_left_cancel₀ hr.ne' hc) (mul_left_cancel₀ hr.ne' hs)

end Verif.EzProj
