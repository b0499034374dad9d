import Verif.EzWind

/-! # C105-C107: rotated coordinates, polar stereographic coordinates, winds

Exact real arithmetic (see `Verif.EzProj`). -/

namespace Verif.EzProj

open Real

/-! ## C105: rotated coordinates -/

/-- The cosine of the angle between two points of the sphere, by the formula of spherical trigonometry
(degrees). -/
noncomputable def cosDist (lon lat lon' lat' : ℝ) : ℝ :=
  sin (π / 180 * lat) * sin (π / 180 * lat') + cos (π / 180 * lat) * cos (π / 180 * lat') * cos (π / 180 * (lon - lon'))

theorem cosDist_eq (lon lat lon' lat' : ℝ) : cosDist lon lat lon' lat' = dot (lac lon lat) (lac lon' lat') := by
  have e : π / 180 * (lon - lon') = dar * lon - dar * lon' := by simp only [dar]; ring
  simp only [cosDist, dot, lac, e, cos_sub]
  simp only [dar]; ring

theorem crot_dir (g : Rot) {m : M33 × M33} (h : crot g.lon1 g.lat1 g.lon2 g.lat2 = some m) : Orth m.1 ∧ m.2 = transpose m.1 := by
  rcases crotV_cases (lac_unit g.lon1 g.lat1) (lac_unit g.lon2 g.lat2) rfl with ⟨_, h0⟩ | ⟨b, _, _, r, _, h1, h2⟩
  · rw [crot, h0] at h; cases h
  · rw [crot, h1] at h; cases h; exact ⟨h2, rfl⟩

theorem gfxyfll_some {g : Rot} {lon lat : ℝ} {o : ℝ × ℝ} (h : gfxyfll g lon lat = some o) :
    ∃ m : M33, Orth m ∧ crot g.lon1 g.lat1 g.lon2 g.lat2 = some (m, transpose m) ∧ o = cal (mxm m (lac lon lat)) := by
  simp only [gfxyfll, Option.map_eq_some_iff] at h
  obtain ⟨m, hm, rfl⟩ := h
  obtain ⟨h1, h2⟩ := crot_dir g hm
  refine ⟨m.1, h1, ?_, rfl⟩
  rw [hm, ← h2]

theorem gfllfxy_some {g : Rot} {lon lat : ℝ} {o : ℝ × ℝ} (h : gfllfxy g lon lat = some o) :
    ∃ m : M33, Orth m ∧ crot g.lon1 g.lat1 g.lon2 g.lat2 = some (m, transpose m) ∧ o = cal (mxm (transpose m) (lac lon lat)) := by
  simp only [gfllfxy, Option.map_eq_some_iff] at h
  obtain ⟨m, hm, rfl⟩ := h
  obtain ⟨h1, h2⟩ := crot_dir g hm
  refine ⟨m.1, h1, ?_, by rw [h2]⟩
  rw [hm, ← h2]

theorem unit_mxm {m : M33} (h : Orth m) (lon lat : ℝ) : dot (mxm m (lac lon lat)) (mxm m (lac lon lat)) = 1 := by
  rw [h.dot, lac_unit]

/-- The transformation is defined exactly when the two points that define the grid are neither equal
nor opposite. -/
theorem C105_defined (g : Rot) (lon lat : ℝ) :
    ((gfxyfll g lon lat).isSome ↔ cosDist g.lon1 g.lat1 g.lon2 g.lat2 ^ 2 ≠ 1) ∧
    ((gfllfxy g lon lat).isSome ↔ cosDist g.lon1 g.lat1 g.lon2 g.lat2 ^ 2 ≠ 1) := by
  rw [cosDist_eq]
  rcases crotV_cases (lac_unit g.lon1 g.lat1) (lac_unit g.lon2 g.lat2) rfl with ⟨h1, h0⟩ | ⟨b, hb, hbb, r, _, h1, h2⟩
  · simp [gfxyfll, gfllfxy, crot, h0, h1]
  · have : dot (lac g.lon1 g.lat1) (lac g.lon2 g.lat2) ^ 2 ≠ 1 := by
      intro e; rw [e] at hbb; have := pow_pos hb 2; linarith
    simp [gfxyfll, gfllfxy, crot, h1, this]

/-- The results are a longitude of `[0, 360)` and a latitude of `[-90, 90]`. -/
theorem C105_range (g : Rot) (lon lat : ℝ) (o : ℝ × ℝ) (h : gfxyfll g lon lat = some o ∨ gfllfxy g lon lat = some o) :
    0 ≤ o.1 ∧ o.1 < 360 ∧ -90 ≤ o.2 ∧ o.2 ≤ 90 := by
  rcases h with h | h
  · obtain ⟨m, hm, _, rfl⟩ := gfxyfll_some h
    obtain ⟨a, b, c, d, _⟩ := cal_spec (unit_mxm hm lon lat)
    exact ⟨a, b, c, d⟩
  · obtain ⟨m, hm, _, rfl⟩ := gfllfxy_some h
    obtain ⟨a, b, c, d, _⟩ := cal_spec (unit_mxm hm.transpose lon lat)
    exact ⟨a, b, c, d⟩

/-- Angular distances are preserved in both directions. -/
theorem C105_distance (g : Rot) (lon lat lon' lat' : ℝ) (o o' : ℝ × ℝ)
    (h : (gfxyfll g lon lat = some o ∧ gfxyfll g lon' lat' = some o') ∨ (gfllfxy g lon lat = some o ∧ gfllfxy g lon' lat' = some o')) :
    cosDist o.1 o.2 o'.1 o'.2 = cosDist lon lat lon' lat' := by
  rcases h with ⟨h, h'⟩ | ⟨h, h'⟩
  · obtain ⟨m, hm, hc, rfl⟩ := gfxyfll_some h
    obtain ⟨m', hm', hc', rfl⟩ := gfxyfll_some h'
    rw [hc] at hc'; cases hc'
    rw [cosDist_eq, cosDist_eq, (cal_spec (unit_mxm hm _ _)).2.2.2.2, (cal_spec (unit_mxm hm _ _)).2.2.2.2, hm.dot]
  · obtain ⟨m, hm, hc, rfl⟩ := gfllfxy_some h
    obtain ⟨m', hm', hc', rfl⟩ := gfllfxy_some h'
    rw [hc] at hc'; cases hc'
    have ht := hm.transpose
    rw [cosDist_eq, cosDist_eq, (cal_spec (unit_mxm ht _ _)).2.2.2.2, (cal_spec (unit_mxm ht _ _)).2.2.2.2, ht.dot]

/-- To rotated coordinates and back: the latitude returns, and away from the poles the longitude does. -/
theorem C105_there (g : Rot) (lon lat : ℝ) (o : ℝ × ℝ) (h1 : -90 ≤ lat) (h2 : lat ≤ 90) (h : gfxyfll g lon lat = some o) :
    ∃ lon', gfllfxy g o.1 o.2 = some (lon', lat) ∧ (-90 < lat → lat < 90 → 0 ≤ lon → lon < 360 → lon' = lon) := by
  obtain ⟨m, hm, hc, rfl⟩ := gfxyfll_some h
  have hs := (cal_spec (unit_mxm hm lon lat)).2.2.2.2
  have e : gfllfxy g (cal (mxm m (lac lon lat))).1 (cal (mxm m (lac lon lat))).2 = some (cal (lac lon lat)) := by
    simp only [gfllfxy, hc, Option.map_some, hs, hm.undo]
  obtain ⟨a, b, c, d, f⟩ := cal_spec (lac_unit lon lat)
  refine ⟨(cal (lac lon lat)).1, ?_, ?_⟩
  · rw [e]
    exact congrArg some (Prod.ext rfl (lac_inj_lat h1 h2 c d f))
  · intro h3 h4 h5 h6
    obtain ⟨_, k, hk⟩ := lac_inj h3 h4 c d f
    exact eq_of_mod h5 h6 a b hk

/-- To true coordinates and back. -/
theorem C105_back (g : Rot) (lon lat : ℝ) (o : ℝ × ℝ) (h1 : -90 ≤ lat) (h2 : lat ≤ 90) (h : gfllfxy g lon lat = some o) :
    ∃ lon', gfxyfll g o.1 o.2 = some (lon', lat) ∧ (-90 < lat → lat < 90 → 0 ≤ lon → lon < 360 → lon' = lon) := by
  obtain ⟨m, hm, hc, rfl⟩ := gfllfxy_some h
  have ht := hm.transpose
  have hs := (cal_spec (unit_mxm ht lon lat)).2.2.2.2
  have e : gfxyfll g (cal (mxm (transpose m) (lac lon lat))).1 (cal (mxm (transpose m) (lac lon lat))).2 = some (cal (lac lon lat)) := by
    have hu := ht.undo (lac lon lat)
    rw [transpose_transpose] at hu
    simp only [gfxyfll, hc, Option.map_some, hs, hu]
  obtain ⟨a, b, c, d, f⟩ := cal_spec (lac_unit lon lat)
  refine ⟨(cal (lac lon lat)).1, ?_, ?_⟩
  · rw [e]
    exact congrArg some (Prod.ext rfl (lac_inj_lat h1 h2 c d f))
  · intro h3 h4 h5 h6
    obtain ⟨_, k, hk⟩ := lac_inj h3 h4 c d f
    exact eq_of_mod h5 h6 a b hk

theorem cal_of_lac {p : V3} {lon lat : ℝ} (h : p = lac lon lat) (h1 : -90 < lat) (h2 : lat < 90) (h3 : 0 ≤ lon) (h4 : lon < 360) :
    cal p = (lon, lat) := by
  subst h
  obtain ⟨a, b, c, d, f⟩ := cal_spec (lac_unit lon lat)
  obtain ⟨hl, k, hk⟩ := lac_inj h1 h2 c d f
  exact Prod.ext (eq_of_mod h3 h4 a b hk) hl

/-- As documented (ez_crot.inc:29-40): the first point is at longitude 180 of the rotated equator, the
second one is on the rotated equator; it lies in the half where the longitude exceeds 180. -/
theorem C105_anchor (g : Rot) (h : cosDist g.lon1 g.lat1 g.lon2 g.lat2 ^ 2 ≠ 1) :
    gfxyfll g g.lon1 g.lat1 = some (180, 0) ∧ ∃ l, 180 < l ∧ l < 360 ∧ gfxyfll g g.lon2 g.lat2 = some (l, 0) := by
  rw [cosDist_eq] at h
  have hp := lac_unit g.lon1 g.lat1
  have hq := lac_unit g.lon2 g.lat2
  rcases crotV_cases hp hq rfl with ⟨h1, h0⟩ | ⟨b, hb, hbb, r, hr, h1, h2⟩
  · exact absurd h1 h
  · have hcr : crot g.lon1 g.lat1 g.lon2 g.lat2 = some (r, transpose r) := h1
    have ha : dot (lac g.lon1 g.lat1) (lac g.lon2 g.lat2) = dot (lac g.lon1 g.lat1) (lac g.lon2 g.lat2) := rfl
    simp only [gfxyfll, hcr, Option.map_some]
    generalize lac g.lon1 g.lat1 = p at *
    generalize lac g.lon2 g.lat2 = q at *
    generalize hA : dot p q = a at *
    simp only [dot] at hp hq hA
    have hbi := hb.ne'
    constructor
    · congr 1
      refine cal_of_lac ?_ (by norm_num) (by norm_num) (by norm_num) (by norm_num)
      have e0 : dar * 0 = 0 := mul_zero _
      subst hr
      ext <;> simp only [mxm, lac, dar_180, e0, cos_pi, sin_pi, cos_zero, sin_zero]
      · linear_combination -hp
      · field_simp
        linear_combination a * hp - hA
      · field_simp; ring
    · have hm : mxm r q = ⟨-a, -b, 0⟩ := by
        subst hr
        ext <;> simp only [mxm]
        · linear_combination -hA
        · field_simp
          rw [hbb]
          linear_combination a * hA - hq
        · field_simp; ring
      rw [hm]
      have hu : dot (⟨-a, -b, 0⟩ : V3) ⟨-a, -b, 0⟩ = 1 := by simp only [dot]; linear_combination hbb
      obtain ⟨a1, a2, a3, a4, a5⟩ := cal_spec hu
      have hz : (cal ⟨-a, -b, 0⟩).2 = 0 := by simp [cal]
      refine ⟨(cal ⟨-a, -b, 0⟩).1, ?_, a2, ?_⟩
      · have hy : cos (dar * (cal ⟨-a, -b, 0⟩).2) * sin (dar * (cal ⟨-a, -b, 0⟩).1) = -b := congrArg V3.y a5
        rw [hz, mul_zero, cos_zero, one_mul] at hy
        by_contra hle
        have hle := not_lt.1 hle
        have : 0 ≤ sin (dar * (cal ⟨-a, -b, 0⟩).1) := by
          apply sin_nonneg_of_nonneg_of_le_pi
          · exact mul_nonneg dar_pos.le a1
          · rw [← dar_180]; exact mul_le_mul_of_nonneg_left hle dar_pos.le
        linarith
      · exact congrArg some (Prod.ext rfl hz)

/-- Two equal points, or two opposite ones, define no rotation: `ez_crot` divides by zero. -/
theorem C105_equal_witness (lon1 lat1 lon lat : ℝ) :
    gfxyfll ⟨lat1, lon1, lat1, lon1⟩ lon lat = none ∧ gfxyfll ⟨lat1, lon1, -lat1, lon1 + 180⟩ lon lat = none := by
  constructor
  · have := (C105_defined ⟨lat1, lon1, lat1, lon1⟩ lon lat).1
    rw [cosDist_eq, lac_unit] at this
    simpa using this
  · have := (C105_defined ⟨lat1, lon1, -lat1, lon1 + 180⟩ lon lat).1
    have e : cosDist lon1 lat1 (lon1 + 180) (-lat1) = -1 := by
      have e1 : π / 180 * (lon1 - (lon1 + 180)) = -π := by field_simp; ring
      have e2 := sin_sq_add_cos_sq (π / 180 * lat1)
      simp only [cosDist, e1, cos_neg, cos_pi, mul_neg, sin_neg]
      linear_combination -e2
    rw [e] at this
    simpa using this

theorem ninety_grid : cosDist 180 0 270 0 ^ 2 ≠ 1 ∧ cosDist 180 0 180 90 ^ 2 ≠ 1 := by
  have e1 : π / 180 * (180 - 270 : ℝ) = -(π / 2) := by field_simp; norm_num
  have e2 : π / 180 * (90 : ℝ) = π / 2 := by field_simp; norm_num
  constructor
  · simp [cosDist, e1]
  · simp [cosDist, e2]

/-- A grid whose rotated equator is the meridian of 180 degrees: it meets the hypotheses, the point at
longitude 180 stays, and the north pole goes to the rotated equator. -/
example : gfxyfll ⟨0, 180, 90, 180⟩ 180 0 = some (180, 0) ∧ ∃ l, 180 < l ∧ l < 360 ∧ gfxyfll ⟨0, 180, 90, 180⟩ 180 90 = some (l, 0) :=
  C105_anchor ⟨0, 180, 90, 180⟩ ninety_grid.2

/-- A point that meets the hypotheses of `C105_there`. -/
example : ∃ o, gfxyfll ⟨0, 180, 90, 180⟩ 20 30 = some o ∧ gfllfxy ⟨0, 180, 90, 180⟩ o.1 o.2 = some (20, 30) := by
  obtain ⟨o, ho⟩ := Option.isSome_iff_exists.1 ((C105_defined ⟨0, 180, 90, 180⟩ 20 30).1.2 ninety_grid.2)
  obtain ⟨l, h1, h2⟩ := C105_there _ _ _ _ (by norm_num) (by norm_num) ho
  rw [h2 (by norm_num) (by norm_num) (by norm_num) (by norm_num)] at h1
  exact ⟨o, ho, h1⟩

/-! ## C106: polar stereographic coordinates -/

theorem vxyfll_north {g : Ps} {lat lon : ℝ} (hn : g.nhem = 1) (hd : g.d60 ≠ 0) (h : 1 + sin (dar * lat) ≠ 0) :
    vxyfll g lat lon = some (reOf g.d60 * sqrt ((1 - sin (dar * lat)) / (1 + sin (dar * lat))) * cos (dar * (lon + g.dgrw)) + g.pi,
      reOf g.d60 * sqrt ((1 - sin (dar * lat)) / (1 + sin (dar * lat))) * sin (dar * (lon + g.dgrw)) + g.pj) := by
  simp only [vxyfll, hn, if_true, hd, h, or_self, if_false]

theorem vxyfll_south {g : Ps} {lat lon : ℝ} (hn : g.nhem = 2) (hd : g.d60 ≠ 0) (h : 1 + sin (dar * -lat) ≠ 0) :
    vxyfll g lat lon = some (reOf g.d60 * sqrt ((1 - sin (dar * -lat)) / (1 + sin (dar * -lat))) *
        cos (dar * (-(if lon > 180 then lon - 360 else lon) + g.dgrw)) + g.pi,
      reOf g.d60 * sqrt ((1 - sin (dar * -lat)) / (1 + sin (dar * -lat))) *
        sin (dar * (-(if lon > 180 then lon - 360 else lon) + g.dgrw)) + g.pj) := by
  simp only [vxyfll, hn, if_true, hd, h, or_self, if_false, show ¬ ((2 : ℤ) = 1) by decide]

theorem sixty {lat : ℝ} (h : sin (dar * lat) = sqrt 3 / 2) :
    1 + sin (dar * lat) ≠ 0 ∧ ∀ d : ℝ, 0 < d →
      0 < reOf d * sqrt ((1 - sin (dar * lat)) / (1 + sin (dar * lat))) ∧
      |reOf d * sqrt ((1 - sin (dar * lat)) / (1 + sin (dar * lat))) * d - 6371000 * (1 / 2)| < 1 := by
  have q : sqrt 3 ^ 2 = 3 := sq_sqrt (by norm_num)
  have q0 : 0 ≤ sqrt 3 := sqrt_nonneg 3
  have q1 : (1.7320508 : ℝ) < sqrt 3 := lt_sqrt_of_sq_lt (by norm_num)
  have q2 : sqrt 3 < (1.7320509 : ℝ) := by
    rw [sqrt_lt' (by norm_num)]; norm_num
  rw [h]
  have hp : 0 < 1 + sqrt 3 / 2 := by linarith
  refine ⟨hp.ne', ?_⟩
  have e : sqrt ((1 - sqrt 3 / 2) / (1 + sqrt 3 / 2)) = (1 / 2) / (1 + sqrt 3 / 2) := by
    rw [sqrt_eq_iff_mul_self_eq (by apply div_nonneg <;> linarith) (by positivity)]
    field_simp
    linear_combination (-1 : ℝ) * q
  intro d hd
  rw [e]
  have e2 : reOf d * (1 / 2 / (1 + sqrt 3 / 2)) * d = 1.866025 * 6371000 * (1 / 2) / (1 + sqrt 3 / 2) := by
    simp only [reOf]; field_simp
  refine ⟨mul_pos (reOf_pos hd) (by positivity), ?_⟩
  rw [e2, abs_lt]
  constructor
  · rw [lt_sub_iff_add_lt, lt_div_iff₀ hp]; linarith
  · rw [sub_lt_iff_lt_add, div_lt_iff₀ hp]; linarith

/-- Where the points are: the pole of the projection is at `(pi, pj)`; the points of latitude 60 (in the
hemisphere of the grid) are at the distance that is true to scale there, that is the radius of their
parallel on a sphere of 6371 km, within one metre; and the direction turns with the longitude, eastward
in the north and westward in the south, from `dgrw` for Greenwich. -/
theorem C106_place (g : Ps) (lon : ℝ) (hd : 0 < g.d60) :
    (g.nhem = 1 → vxyfll g 90 lon = some (g.pi, g.pj) ∧
      ∃ r, 0 < r ∧ |r * g.d60 - 6371000 * cos (π / 3)| < 1 ∧
        vxyfll g 60 lon = some (g.pi + r * cos (π / 180 * (g.dgrw + lon)), g.pj + r * sin (π / 180 * (g.dgrw + lon)))) ∧
    (g.nhem = 2 → vxyfll g (-90) lon = some (g.pi, g.pj) ∧
      ∃ r, 0 < r ∧ |r * g.d60 - 6371000 * cos (π / 3)| < 1 ∧
        vxyfll g (-60) lon = some (g.pi + r * cos (π / 180 * (g.dgrw - lon)), g.pj + r * sin (π / 180 * (g.dgrw - lon)))) := by
  have s60 : sin (dar * 60) = sqrt 3 / 2 := by
    rw [show dar * 60 = π / 3 by simp only [dar]; ring, sin_pi_div_three]
  have s90 : sin (dar * 90) = 1 := by
    rw [show dar * 90 = π / 2 by simp only [dar]; ring, sin_pi_div_two]
  obtain ⟨n1, n2⟩ := sixty s60
  rw [cos_pi_div_three]
  constructor
  · intro hn
    constructor
    · rw [vxyfll_north hn hd.ne' (by rw [s90]; norm_num), s90]; simp
    · refine ⟨_, (n2 _ hd).1, (n2 _ hd).2, ?_⟩
      rw [vxyfll_north hn hd.ne' n1]
      refine congrArg some (Prod.ext ?_ ?_) <;> simp only [dar, add_comm]
  · intro hn
    constructor
    · rw [vxyfll_south hn hd.ne' (by rw [neg_neg, s90]; norm_num), neg_neg, s90]; simp
    · refine ⟨_, (n2 _ hd).1, (n2 _ hd).2, ?_⟩
      rw [vxyfll_south hn hd.ne' (by rw [neg_neg]; exact n1), neg_neg]
      have turn : cos (dar * (-(if lon > 180 then lon - 360 else lon) + g.dgrw)) = cos (π / 180 * (g.dgrw - lon)) ∧
          sin (dar * (-(if lon > 180 then lon - 360 else lon) + g.dgrw)) = sin (π / 180 * (g.dgrw - lon)) := by
        by_cases c : lon > 180
        · rw [if_pos c]
          have : dar * (-(lon - 360) + g.dgrw) = π / 180 * (g.dgrw - lon) + 2 * π := by simp only [dar]; ring
          rw [this, cos_add_two_pi, sin_add_two_pi]
          exact ⟨rfl, rfl⟩
        · rw [if_neg c]
          have : dar * (-lon + g.dgrw) = π / 180 * (g.dgrw - lon) := by simp only [dar]; ring
          rw [this]; exact ⟨rfl, rfl⟩
      rw [turn.1, turn.2]
      refine congrArg some (Prod.ext ?_ ?_) <;> simp only [add_comm]

example : ∃ r, 0 < r ∧ |r * 381000 - 6371000 * cos (π / 3)| < 1 ∧
    vxyfll ⟨381000, -10, 40, 30, 1⟩ 60 100 = some (40 + r * cos (π / 180 * (-10 + 100)), 30 + r * sin (π / 180 * (-10 + 100))) :=
  ((C106_place ⟨381000, -10, 40, 30, 1⟩ 100 (by norm_num)).1 rfl).2

/-- Latitude and longitude to grid coordinates and back: the latitude returns, and away from the pole of
the projection the longitude does up to a multiple of 360. -/
theorem C106_ll (g : Ps) (lat lon : ℝ) (hd : 0 < g.d60)
    (h : (g.nhem = 1 ∧ -90 < lat ∧ lat ≤ 90) ∨ (g.nhem = 2 ∧ -90 ≤ lat ∧ lat < 90)) :
    ∃ x y, vxyfll g lat lon = some (x, y) ∧ (vllfxy g x y).1 = lat ∧
      (-90 < lat → lat < 90 → ∃ k : ℤ, (vllfxy g x y).2 = lon + 360 * k) := by
  have he := reOf_pos hd
  -- the point at angle `t` of a latitude `l` counted from the pole of the projection
  have core : ∀ (l t : ℝ), -90 < l → l ≤ 90 →
      1 + sin (dar * l) ≠ 0 ∧
      let r := reOf g.d60 * sqrt ((1 - sin (dar * l)) / (1 + sin (dar * l)))
      let x1 := r * cos (dar * t) + g.pi - g.pi
      let y1 := r * sin (dar * t) + g.pj - g.pj
      arcsin (max (-1) (min ((reOf g.d60 ^ 2 - (x1 * x1 + y1 * y1)) / (reOf g.d60 ^ 2 + (x1 * x1 + y1 * y1))) 1)) * rad = l ∧
      (l < 90 → ∃ k : ℤ, mapLon x1 y1 = t + 360 * k) := by
    intro l t hl1 hl2
    have hs1 := sin_gt hl1 hl2
    have hs2 := sin_le_one (dar * l)
    refine ⟨by intro e; linarith, ?_⟩
    intro r x1 y1
    have ex : x1 = r * cos (dar * t) := by simp only [x1]; ring
    have ey : y1 = r * sin (dar * t) := by simp only [y1]; ring
    have er : x1 * x1 + y1 * y1 = r ^ 2 := by
      rw [ex, ey]; have := sin_sq_add_cos_sq (dar * t); linear_combination r ^ 2 * this
    refine ⟨?_, ?_⟩
    · rw [er, polar_lat he hs1 hs2, clamp_eq' hs1.le hs2]
      exact arcsin_lat hl1.le hl2
    · intro hl
      have hr : 0 < r := by
        have hc := cos_pos_of_lat hl1 hl
        have h1 : sin (dar * l) < 1 := by
          have := sin_sq_add_cos_sq (dar * l)
          nlinarith [sq_nonneg (sin (dar * l) - 1), pow_pos hc 2]
        apply mul_pos he
        apply sqrt_pos.2
        apply div_pos <;> linarith
      rw [ex, ey]
      exact mapLon_of_polar hr
  rcases h with ⟨hn, h1, h2⟩ | ⟨hn, h1, h2⟩
  · obtain ⟨hne, hl, hm⟩ := core lat (lon + g.dgrw) h1 h2
    refine ⟨_, _, vxyfll_north hn hd.ne' hne, ?_, ?_⟩
    · rw [vllfxy_eq]
      simp only [hn]
      exact hl
    · intro _ h4
      obtain ⟨k, hk⟩ := hm h4
      rw [vllfxy_eq]
      simp only [hn]
      rw [if_neg (by decide)]
      simp only [hk]
      obtain ⟨j, hj⟩ := lift_mod (lon + g.dgrw + 360 * k - g.dgrw)
      exact ⟨k + j, by rw [hj]; push_cast; ring⟩
  · obtain ⟨hne, hl, hm⟩ := core (-lat) (-(if lon > 180 then lon - 360 else lon) + g.dgrw) (by linarith) (by linarith)
    refine ⟨_, _, vxyfll_south hn hd.ne' hne, ?_, ?_⟩
    · rw [vllfxy_eq]
      simp only [hn, if_true]
      rw [hl, neg_neg]
    · intro h3 _
      obtain ⟨k, hk⟩ := hm (by linarith)
      rw [vllfxy_eq]
      simp only [hn, if_true]
      rw [hk]
      generalize hM : (-(if lon > 180 then lon - 360 else lon) + g.dgrw + 360 * (k : ℝ) - g.dgrw) = M
      obtain ⟨j, hj⟩ := lift_mod M
      obtain ⟨i, hi⟩ := lift_mod (-(if M < 0 then M + 360 else M))
      rw [hi, hj, ← hM]
      by_cases hlon : lon > 180
      · simp only [hlon, if_true]
        exact ⟨-k - j + i - 1, by push_cast; ring⟩
      · simp only [hlon, if_false]
        exact ⟨-k - j + i, by push_cast; ring⟩

/-- Grid coordinates to latitude and longitude and back, for every point of the plane. -/
theorem C106_xy (g : Ps) (x y : ℝ) (hd : 0 < g.d60) (hn : g.nhem = 1 ∨ g.nhem = 2) :
    vxyfll g (vllfxy g x y).1 (vllfxy g x y).2 = some (x, y) := by
  have he := reOf_pos hd
  rw [vllfxy_eq]
  obtain ⟨hc, hs⟩ := mapLon_polar (x - g.pi) (y - g.pj)
  generalize hM : mapLon (x - g.pi) (y - g.pj) = M at *
  have er : (x - g.pi) ^ 2 + (y - g.pj) ^ 2 = (x - g.pi) * (x - g.pi) + (y - g.pj) * (y - g.pj) := by ring
  rw [er] at hc hs
  generalize hR : (x - g.pi) * (x - g.pi) + (y - g.pj) * (y - g.pj) = r2 at *
  have hr : 0 ≤ r2 := by rw [← hR]; nlinarith [sq_nonneg (x - g.pi), sq_nonneg (y - g.pj)]
  obtain ⟨b1, b2⟩ := ratio_bounds (pow_pos he 2) hr
  have hq := ratio_sqrt he hr
  simp only [clamp_eq' b1.le b2]
  generalize hS : (reOf g.d60 ^ 2 - r2) / (reOf g.d60 ^ 2 + r2) = S at *
  have hne : 1 + S ≠ 0 := by intro e; linarith
  have hsin : sin (dar * (arcsin S * rad)) = S := by rw [mul_rad_dar, sin_arcsin b1.le b2]
  rcases hn with hn | hn
  · simp only [vxyfll, hn, if_true]
    rw [if_neg (show ¬ ((1 : ℤ) = 2) by decide)]
    simp only [hsin, hd.ne', hne, or_self, if_false, hq]
    obtain ⟨j, hj⟩ := lift_mod (M - g.dgrw)
    have ea : (if M - g.dgrw < 0 then M - g.dgrw + 360 else M - g.dgrw) + g.dgrw = M + 360 * j := by rw [hj]; ring
    rw [ea, cos_add_mod, sin_add_mod, hc, hs]
    congr 2 <;> ring
  · simp only [vxyfll, hn, if_true]
    rw [if_neg (show ¬ ((2 : ℤ) = 1) by decide)]
    simp only [neg_neg, hsin, hd.ne', hne, or_self, if_false, hq]
    obtain ⟨j, hj⟩ := lift_mod (M - g.dgrw)
    obtain ⟨i, hi⟩ := lift_mod (-(if M - g.dgrw < 0 then M - g.dgrw + 360 else M - g.dgrw))
    rw [hi, hj]
    have ea : ∃ n : ℤ, -(if -(M - g.dgrw + 360 * (j : ℝ)) + 360 * (i : ℝ) > 180 then -(M - g.dgrw + 360 * (j : ℝ)) + 360 * (i : ℝ) - 360
        else -(M - g.dgrw + 360 * (j : ℝ)) + 360 * (i : ℝ)) + g.dgrw = M + 360 * n := by
      split
      · exact ⟨j - i + 1, by push_cast; ring⟩
      · exact ⟨j - i, by push_cast; ring⟩
    obtain ⟨n, hn'⟩ := ea
    rw [hn', cos_add_mod, sin_add_mod, hc, hs]
    congr 2 <;> ring

/-- For `dgrw` in `(-180, 180]` the longitude returned is in `[0, 360)`; the latitude is always in
`[-90, 90]`. -/
theorem C106_range (g : Ps) (x y : ℝ) :
    -90 ≤ (vllfxy g x y).1 ∧ (vllfxy g x y).1 ≤ 90 ∧
    (-180 < g.dgrw → g.dgrw ≤ 180 → 0 ≤ (vllfxy g x y).2 ∧ (vllfxy g x y).2 < 360) := by
  rw [vllfxy_eq]
  obtain ⟨m1, m2⟩ := mapLon_bounds (x - g.pi) (y - g.pj)
  generalize mapLon (x - g.pi) (y - g.pj) = M at *
  have hr := rad_pos
  have hpr := pi_rad
  have a1 : ∀ z, -90 ≤ arcsin z * rad := fun z => by
    have := mul_le_mul_of_nonneg_right (neg_pi_div_two_le_arcsin z) hr.le
    linarith
  have a2 : ∀ z, arcsin z * rad ≤ 90 := fun z => by
    have := mul_le_mul_of_nonneg_right (arcsin_le_pi_div_two z) hr.le
    linarith
  dsimp only
  by_cases h2 : g.nhem = 2
  · simp only [h2, if_true]
    refine ⟨by linarith [a2 (max (-1) (min ((reOf g.d60 ^ 2 - ((x - g.pi) * (x - g.pi) + (y - g.pj) * (y - g.pj))) / (reOf g.d60 ^ 2 + ((x - g.pi) * (x - g.pi) + (y - g.pj) * (y - g.pj)))) 1))],
      by linarith [a1 (max (-1) (min ((reOf g.d60 ^ 2 - ((x - g.pi) * (x - g.pi) + (y - g.pj) * (y - g.pj))) / (reOf g.d60 ^ 2 + ((x - g.pi) * (x - g.pi) + (y - g.pj) * (y - g.pj)))) 1))], ?_⟩
    intro d1 d2
    split <;> split at * <;> constructor <;> linarith
  · simp only [h2, if_false]
    refine ⟨a1 _, a2 _, ?_⟩
    intro d1 d2
    split <;> constructor <;> linarith

/-- For other values of `dgrw` the longitude can be outside: one correction by 360 is not enough. -/
theorem C106_range_witness : (vllfxy ⟨1000, -200, 0, 0, 1⟩ (-1) 0).2 = 380 ∧ (vllfxy ⟨1000, 500, 0, 0, 1⟩ 1 0).2 = -140 := by
  have h180 : |(180 : ℝ)| = 180 := by norm_num
  constructor
  · rw [vllfxy_eq]
    simp [mapLon, fsign]; norm_num
  · rw [vllfxy_eq]
    simp [mapLon, fsign]; norm_num

/-- At the pole of the projection the code first sets the longitude to 0 and then replaces it
(ez_vllfxy.inc:63-70): the result is `90 - dgrw`. -/
theorem C106_pole_witness (d60 pi pj : ℝ) (hd : 0 < d60) : vllfxy ⟨d60, 0, pi, pj, 1⟩ pi pj = (90, 90) := by
  rw [vllfxy_eq]
  have he := reOf_pos hd
  have hpr := pi_rad
  have e : mapLon 0 0 = 90 := by simp [mapLon, fsign]
  have e1 : reOf d60 ^ 2 / reOf d60 ^ 2 = 1 := div_self (pow_pos he 2).ne'
  simp only [sub_self, e, mul_zero, add_zero, sub_zero, e1]
  simp
  linarith

/-- A point that meets the hypotheses of `C106_ll`: Montreal on a northern grid. -/
example : ∃ x y, vxyfll ⟨381000, -10, 40, 40, 1⟩ 45.5 286.4 = some (x, y) ∧ (vllfxy ⟨381000, -10, 40, 40, 1⟩ x y).1 = 45.5 ∧
    (vllfxy ⟨381000, -10, 40, 40, 1⟩ x y).2 = 286.4 := by
  obtain ⟨x, y, h1, h2, h3⟩ := C106_ll ⟨381000, -10, 40, 40, 1⟩ 45.5 286.4 (by norm_num) (Or.inl ⟨rfl, by norm_num, by norm_num⟩)
  refine ⟨x, y, h1, h2, ?_⟩
  obtain ⟨k, hk⟩ := h3 (by norm_num) (by norm_num)
  obtain ⟨r1, r2⟩ := (C106_range ⟨381000, -10, 40, 40, 1⟩ x y).2.2 (by norm_num) (by norm_num)
  exact eq_of_mod (by norm_num) (by norm_num) r1 r2 hk

/-! ## C107: winds -/

/-- Speed and direction to components and back, for a speed that is not zero. -/
theorem C107_there (t : Grtyp) (ht : t ≠ .other) (xg4 xlon spd dir : ℝ) (hs : 0 < spd) :
    let w := gdwfllw t xg4 xlon spd dir
    (llwfgdw t xg4 xlon w.1 w.2).1 = spd ∧ 0 ≤ (llwfgdw t xg4 xlon w.1 w.2).2 ∧ (llwfgdw t xg4 xlon w.1 w.2).2 < 360 ∧
      ∃ k : ℤ, (llwfgdw t xg4 xlon w.1 w.2).2 = dir + 360 * k := by
  intro w
  obtain ⟨e1, e2, e3, e4, _⟩ := llwfgdw_eq ht xg4 xlon w.1 w.2
  have hw : w = _ := gdwfllw_eq ht xg4 xlon spd dir
  have hw1 : w.1 = cos ((base t xg4 xlon - dir) * dar) * spd := by rw [hw]
  have hw2 : w.2 = sin ((base t xg4 xlon - dir) * dar) * spd := by rw [hw]
  have hr : sqrt (w.1 * w.1 + w.2 * w.2) = spd := by
    have : w.1 * w.1 + w.2 * w.2 = spd ^ 2 := by
      rw [hw1, hw2]
      have := sin_sq_add_cos_sq ((base t xg4 xlon - dir) * dar)
      linear_combination spd ^ 2 * this
    rw [this, sqrt_sq hs.le]
  refine ⟨by rw [e1, hr], e2, e3, ?_⟩
  obtain ⟨k, hk⟩ := e4 (by rw [hr]; exact hs.ne')
  obtain ⟨hc, hsn⟩ := wang_polar w.1 w.2
  rw [hr] at hc hsn
  have hc' := mul_right_cancel₀ hs.ne' (hc.trans hw1)
  have hs' := mul_right_cancel₀ hs.ne' (hsn.trans hw2)
  obtain ⟨j, hj⟩ := mod_of_cos_sin (x := wang w.1 w.2) (y := base t xg4 xlon - dir)
    (by rw [mul_comm, hc', mul_comm]) (by rw [mul_comm, hs', mul_comm])
  exact ⟨k - j, by rw [hk, hj]; push_cast; ring⟩

/-- Components to speed and direction and back, for every wind. -/
theorem C107_back (t : Grtyp) (ht : t ≠ .other) (xg4 xlon u v : ℝ) :
    let w := llwfgdw t xg4 xlon u v
    gdwfllw t xg4 xlon w.1 w.2 = (u, v) := by
  intro w
  obtain ⟨e1, e2, e3, e4, e5⟩ := llwfgdw_eq ht xg4 xlon u v
  rw [gdwfllw_eq ht]
  obtain ⟨hc, hs⟩ := wang_polar u v
  have hw1 : w.1 = sqrt (u * u + v * v) := e1
  by_cases h0 : sqrt (u * u + v * v) = 0
  · rw [h0, mul_zero] at hc hs
    rw [hw1, h0, mul_zero, mul_zero, ← hc, ← hs]
  · obtain ⟨k, hk⟩ := e4 h0
    have hw2 : w.2 = _ := hk
    have ea : (base t xg4 xlon - w.2) * dar = dar * (wang u v + 360 * ((-k : ℤ) : ℝ)) := by rw [hw2]; push_cast; ring
    rw [ea, cos_add_mod, sin_add_mod, hw1, mul_comm dar, hc, hs]

/-- The meteorological convention on a latitude-longitude grid: the components are those of a wind that
blows from the direction `dir`, counted clockwise from north. -/
theorem C107_from (xg4 xlon spd dir : ℝ) :
    gdwfllw .L xg4 xlon spd dir = (-spd * sin (π / 180 * dir), -spd * cos (π / 180 * dir)) := by
  rw [gdwfllw_eq (by decide)]
  simp only [base]
  have e : (270 - dir) * dar = 3 * (π / 2) - dar * dir := by rw [← dar_90]; ring
  have h3c : cos (3 * (π / 2)) = 0 := by
    have : 3 * (π / 2) = π / 2 + π := by ring
    rw [this, cos_add_pi, cos_pi_div_two, neg_zero]
  have h3s : sin (3 * (π / 2)) = -1 := by
    have : 3 * (π / 2) = π / 2 + π := by ring
    rw [this, sin_add_pi, sin_pi_div_two]
  rw [e, cos_sub, sin_sub, h3c, h3s]
  simp only [dar]
  congr 1 <;> ring

theorem rot_wind {m : M33} (hm : Orth m) {lonr latr lonin latin u v : ℝ} (hl : lac lonr latr = mxm m (lac lonin latin)) :
    let c := cartauv (mxm m (uvacart u v lonin latin)) lonr latr
    cartauv (mxm (transpose m) (uvacart c.1 c.2 lonr latr)) lonin latin = (u, v) ∧ c.1 ^ 2 + c.2 ^ 2 = u ^ 2 + v ^ 2 := by
  intro c
  have ht : dot (mxm m (uvacart u v lonin latin)) (lac lonr latr) = 0 := by rw [hl, hm.dot, uvacart_tangent]
  have hb : uvacart c.1 c.2 lonr latr = mxm m (uvacart u v lonin latin) := uvacart_cartauv ht
  constructor
  · rw [hb, hm.undo, cartauv_uvacart]
  · rw [← uvacart_norm c.1 c.2 lonr latr, hb, hm.dot, uvacart_norm]

/-- For a grid of type `#`, `Y` or `Z` on a rotated reference: the components have the given speed, the
caller's coordinates are unchanged, and speed and direction return.  For a grid of type `E` this does
not hold (`C107_E_witness`). -/
theorem C107_rotated_partial (g : Rot) (junk : ℝ × ℝ) (spd dir latin lonin : ℝ) (o : UvOut)
    (h : gduvfwd (.ze g) junk spd dir latin lonin = some o) :
    o.uv.1 ^ 2 + o.uv.2 ^ 2 = spd ^ 2 ∧ o.latin = latin ∧ o.lonin = lonin ∧
    ∃ d, gdwdfuv (.ze g) o.uv.1 o.uv.2 latin lonin = some (|spd|, d) ∧ 0 ≤ d ∧ d < 360 ∧
      (0 < spd → ∃ k : ℤ, d = dir + 360 * k) := by
  simp only [gduvfwd] at h
  split at h
  · cases h
  next lonr latr hg =>
    obtain ⟨m, hm, hc, ho⟩ := gfxyfll_some hg
    have hl : lac lonr latr = mxm m (lac lonin latin) := by
      have := (cal_spec (unit_mxm hm lonin latin)).2.2.2.2
      rw [← ho] at this; exact this
    simp only [gfwfllw, hc, Option.map_some, Option.some.injEq] at h
    subst h
    obtain ⟨w1, w2⟩ := rot_wind hm (u := (gdwfllw .L 0 lonin spd dir).1) (v := (gdwfllw .L 0 lonin spd dir).2) hl
    have hsq : (gdwfllw .L 0 lonin spd dir).1 ^ 2 + (gdwfllw .L 0 lonin spd dir).2 ^ 2 = spd ^ 2 := by
      rw [gdwfllw_eq (by decide)]
      have := sin_sq_add_cos_sq ((base .L 0 lonin - dir) * dar)
      linear_combination spd ^ 2 * this
    refine ⟨by rw [← hsq]; exact w2, rfl, rfl, ?_⟩
    refine ⟨(llwfgdw .L 0 lonr (gdwfllw .L 0 lonin spd dir).1 (gdwfllw .L 0 lonin spd dir).2).2, ?_, ?_⟩
    · simp only [gdwdfuv, hg, llwfgfw, hc, Option.map_some]
      rw [w1]
      congr 1
      refine Prod.ext ?_ rfl
      rw [(llwfgdw_eq (by decide) _ _ _ _).1, ← sqrt_sq_eq_abs, ← hsq]
      congr 1; ring
    · obtain ⟨_, e2, e3, _, _⟩ := llwfgdw_eq (t := .L) (by decide) 0 lonr (gdwfllw .L 0 lonin spd dir).1 (gdwfllw .L 0 lonin spd dir).2
      refine ⟨e2, e3, ?_⟩
      intro hs
      exact (C107_there .L (by decide) 0 lonr spd dir hs).2.2.2

theorem lac_0_0 : lac 0 0 = ⟨1, 0, 0⟩ := by simp [lac]
theorem lac_180_0 : lac 180 0 = ⟨-1, 0, 0⟩ := by simp [lac, dar_180]
theorem lac_180_90 : lac 180 90 = ⟨0, 0, 1⟩ := by simp [lac, dar_180, dar_90]

theorem crot_example : crot 180 0 180 90 = some
    (⟨⟨1, 0, 0⟩, ⟨0, 0, -1⟩, ⟨0, 1, 0⟩⟩, transpose ⟨⟨1, 0, 0⟩, ⟨0, 0, -1⟩, ⟨0, 1, 0⟩⟩) := by
  simp [crot, crotV, lac_180_0, lac_180_90]

/-- For a grid of type `E` the call at gduvfwd.c:47-49 has its arguments exchanged.  On the grid whose
rotated equator is the meridian of 180 degrees, for a west wind of speed 1 at latitude 0, longitude 180:
the right components are `(0, -1)`.  With uninitialised arrays that happen to hold zeros the function
returns `(0, 1)` and replaces the caller's longitude by 0. -/
theorem C107_E_witness :
    gduvfwd (.ze ⟨0, 180, 90, 180⟩) (0, 0) 1 270 0 180 = some ⟨(0, -1), 0, 180⟩ ∧
    gduvfwd (.e ⟨0, 180, 90, 180⟩) (0, 0) 1 270 0 180 = some ⟨(0, 1), 0, 0⟩ := by
  have c0 : cal ⟨1, 0, 0⟩ = (0, 0) := cal_of_lac lac_0_0.symm (by norm_num) (by norm_num) (by norm_num) (by norm_num)
  have c1 : cal ⟨-1, 0, 0⟩ = (180, 0) := cal_of_lac lac_180_0.symm (by norm_num) (by norm_num) (by norm_num) (by norm_num)
  constructor
  · simp [gduvfwd, gfxyfll, gfwfllw, crot_example, mxm, lac_180_0, c1, gdwfllw, uvacart, cartauv, dar_180, fsign]
  · simp [gduvfwd, gfxyfll, gfwfllw, crot_example, mxm, lac_0_0, c0, gdwfllw, uvacart, cartauv, fsign]

/-- A concrete wind: 10 from the west on a latitude-longitude grid is `u = 10`, `v = 0`. -/
example : gdwfllw .L 0 0 10 270 = (10, 0) := by simp [gdwfllw]

end Verif.EzProj
