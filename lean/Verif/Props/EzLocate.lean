import Verif.EzLocateLemmas

/-! # C108, C109, C110: positions on latitude-longitude grids -/

namespace Verif.EzLocate

/-! ## C108: position to latitude-longitude and back -/

theorem llll2gd_wrap {lat lon a b c d r : ℚ} (hd : d ≠ 0) (hc : c ≠ 0) :
    llll2gd lat lon a b c d r = some (((wrap r lon - b) / d + 1, (lat - a) / c + 1), wrap r lon) := by
  simp only [llll2gd]
  rw [if_neg (by tauto)]

theorem llll2gd_eq {lat lon a b c d : ℚ} (hd : d ≠ 0) (hc : c ≠ 0) (hl : 0 ≤ lon) :
    llll2gd lat lon a b c d 0 = some (((lon - b) / d + 1, (lat - a) / c + 1), lon) := by
  have : wrap 0 lon = lon := by
    rw [wrap, if_neg (by norm_num : ¬ (0 : ℚ) = -180), if_neg (not_lt.2 hl)]
  rw [llll2gd_wrap hd hc, this]

/-- A grid of type A or B over the globe or one hemisphere, with `n` distinct meridians. -/
def Ring (g : Grille) (n : ℕ) : Prop :=
  ((g.typ = .A ∧ n = g.ni ∧ 1 ≤ g.ni ∧ 1 ≤ g.nj) ∨ (g.typ = .B ∧ n + 1 = g.ni ∧ 2 ≤ g.ni ∧ 2 ≤ g.nj)) ∧
    (g.ig1 = 0 ∨ g.ig1 = 1 ∨ g.ig1 = 2)

/-- The definition of the grid and the search use the same origin and spacing. -/
theorem ring_same {g : Grille} {n : ℕ} (h : Ring g n) : ∃ a c : ℚ, 0 < c ∧ (0 : ℚ) < n ∧
    defxg g = some ⟨a, 0, c, 360 / n⟩ ∧ (g.typ = .A ∨ g.typ = .B) ∧
    ∀ lat lon, ll2rgd g lat lon = llll2gd lat (if lon < 0 then lon + 360 else lon) a 0 c (360 / n) 0 := by
  obtain ⟨⟨ht, rfl, hi, hj⟩ | ⟨ht, hn, hi, hj⟩, h1⟩ := h
  · have hni : (0 : ℚ) < g.ni := by exact_mod_cast hi
    have hnj : (0 : ℚ) < g.nj := by exact_mod_cast hj
    have hc : ¬ (g.ni = 0 ∨ g.nj = 0) := by omega
    rcases h1 with h1 | h1 | h1
    · refine ⟨-90 + 1 / 2 * (180 / g.nj), 180 / g.nj, by positivity, hni, ?_, Or.inl ht, fun lat lon => ?_⟩
      · simp [defxg, ht, hc, h1]
      · simp only [ll2rgd, ht, if_neg hc, h1, if_true, mul_comm]
    · refine ⟨1 / 2 * (90 / g.nj), 90 / g.nj, by positivity, hni, ?_, Or.inl ht, fun lat lon => ?_⟩
      · simp [defxg, ht, hc, h1]
      · simp only [ll2rgd, ht, if_neg hc, h1, if_true, mul_comm, one_ne_zero, if_false]
    · refine ⟨-90 + 1 / 2 * (90 / g.nj), 90 / g.nj, by positivity, hni, ?_, Or.inl ht, fun lat lon => ?_⟩
      · simp [defxg, ht, hc, h1]
      · simp only [ll2rgd, ht, if_neg hc, h1, if_true, mul_comm, if_neg (by decide : ¬ (2 : ℤ) = 0),
          if_neg (by decide : ¬ (2 : ℤ) = 1)]
  · have en : ((g.ni : ℚ) - 1) = n := by rw [← hn]; push_cast; ring
    have hni : (0 : ℚ) < n := by exact_mod_cast (by omega : 0 < n)
    have hnj : (0 : ℚ) < (g.nj : ℚ) - 1 := by
      have : (1 : ℚ) < g.nj := by exact_mod_cast hj
      linarith
    have hc : ¬ (g.ni ≤ 1 ∨ g.nj ≤ 1) := by omega
    rcases h1 with h1 | h1 | h1
    · refine ⟨-90, 180 / (g.nj - 1), by positivity, hni, ?_, Or.inr ht, fun lat lon => ?_⟩
      · simp only [defxg, ht, if_neg hc, h1, if_true, en]
      · simp only [ll2rgd, ht, if_neg hc, h1, if_true, en]
    · refine ⟨0, 90 / (g.nj - 1), by positivity, hni, ?_, Or.inr ht, fun lat lon => ?_⟩
      · simp only [defxg, ht, if_neg hc, h1, if_true, en, one_ne_zero, if_false]
      · simp only [ll2rgd, ht, if_neg hc, h1, if_true, en, one_ne_zero, if_false]
    · refine ⟨-90, 90 / (g.nj - 1), by positivity, hni, ?_, Or.inr ht, fun lat lon => ?_⟩
      · simp only [defxg, ht, if_neg hc, h1, if_true, en, if_neg (by decide : ¬ (2 : ℤ) = 0), if_neg (by decide : ¬ (2 : ℤ) = 1)]
      · simp only [ll2rgd, ht, if_neg hc, h1, if_true, en, if_neg (by decide : ¬ (2 : ℤ) = 0), if_neg (by decide : ¬ (2 : ℤ) = 1)]

theorem ab_llfxy {g : Grille} {l : Lin} (ht : g.typ = .A ∨ g.typ = .B ∨ g.typ = .L) (hx : defxg g = some l) (x y : ℚ) :
    gdllfxy g x y = some ((y - 1) * l.dlat + l.swlat, fmod ((x - 1) * l.dlon + l.swlon + 360) 360) := by
  rcases ht with ht | ht | ht <;> simp only [gdllfxy, gdllfxyWith, ht, hx] <;> rfl

theorem ab_xyfll {g : Grille} (ht : g.typ = .A ∨ g.typ = .B ∨ g.typ = .L) (lat lon : ℚ) :
    gdxyfll g lat lon = (ll2rgd g lat lon).map fun r => (r.1, lon) := by
  rcases ht with ht | ht | ht <;> simp only [gdxyfll, ht]

/-- **C108**, types A and B.  Every position, even outside the grid, comes back in the same row and in the
column of the first turn around the globe. -/
theorem C108_ring (g : Grille) (n : ℕ) (h : Ring g n) (x y : ℚ) :
    ∃ lat lon, gdllfxy g x y = some (lat, lon) ∧ ∃ k : ℤ,
      gdxyfll g lat lon = some ((x + k * n, y), lon) ∧ 1 ≤ x + k * n ∧ x + k * n < n + 1 := by
  obtain ⟨a, c, hc, hn, hx, ht, hl⟩ := ring_same h
  have ht' : g.typ = .A ∨ g.typ = .B ∨ g.typ = .L := ht.elim Or.inl (Or.inr ∘ Or.inl)
  refine ⟨_, _, ab_llfxy ht' hx x y, ?_⟩
  obtain ⟨k, e, h1, h2⟩ := lift ((x - 1) * (360 / n) + 0)
  refine ⟨k, ?_⟩
  rw [ab_xyfll ht', hl, llll2gd_eq (by positivity) hc.ne' h1, e]
  have e1 : ((x - 1) * (360 / (n : ℚ)) + 0 + 360 * k - 0) / (360 / n) + 1 = x + k * n := by field_simp; ring
  refine ⟨?_, ?_, ?_⟩
  · rw [Option.map_some]
    refine congrArg some (Prod.ext (Prod.ext e1 ?_) rfl)
    dsimp only
    field_simp
    ring
  · rw [e] at h1
    rw [← e1]
    have : 0 ≤ ((x - 1) * (360 / (n : ℚ)) + 0 + 360 * k - 0) / (360 / n) := by
      apply div_nonneg <;> [linarith; positivity]
    linarith
  · rw [e] at h2
    rw [← e1]
    have : ((x - 1) * (360 / (n : ℚ)) + 0 + 360 * k - 0) / (360 / n) < n := by
      rw [div_lt_iff₀ (by positivity)]
      have : (n : ℚ) * (360 / n) = 360 := by field_simp
      linarith
    linarith

/-- **C108**, types A and B, inside the first turn: the position itself comes back. -/
theorem C108_ring_inside (g : Grille) (n : ℕ) (h : Ring g n) (x y : ℚ) (h1 : 1 ≤ x) (h2 : x < n + 1) :
    ∃ lat lon, gdllfxy g x y = some (lat, lon) ∧ gdxyfll g lat lon = some ((x, y), lon) := by
  obtain ⟨lat, lon, e, k, e2, k1, k2⟩ := C108_ring g n h x y
  refine ⟨lat, lon, e, ?_⟩
  have hn : (0 : ℚ) ≤ n := by positivity
  have : k = 0 := by
    have a1 : (k : ℚ) * n < n := by linarith
    have a2 : -(n : ℚ) < k * n := by linarith
    by_contra hk
    rcases lt_or_gt_of_ne hk with q | q
    · have : (k : ℚ) ≤ -1 := by exact_mod_cast (by omega : k ≤ -1)
      nlinarith
    · have : (1 : ℚ) ≤ k := by exact_mod_cast q
      nlinarith
  rw [e2, this]; simp

/-- The other way: latitude and longitude to a position and back. -/
theorem C108_ring_back (g : Grille) (n : ℕ) (h : Ring g n) (lat lon : ℚ) (h0 : 0 ≤ lon) (h1 : lon < 360) :
    ∃ x y, gdxyfll g lat lon = some ((x, y), lon) ∧ gdllfxy g x y = some (lat, lon) := by
  obtain ⟨a, c, hc, hn, hx, ht, hl⟩ := ring_same h
  have ht' : g.typ = .A ∨ g.typ = .B ∨ g.typ = .L := ht.elim Or.inl (Or.inr ∘ Or.inl)
  refine ⟨(lon - 0) / (360 / n) + 1, (lat - a) / c + 1, ?_, ?_⟩
  · rw [ab_xyfll ht', hl, if_neg (not_lt.2 h0), llll2gd_eq (by positivity) hc.ne' h0, Option.map_some]
  · rw [ab_llfxy ht' hx]
    refine congrArg some (Prod.ext ?_ ?_)
    · dsimp only; field_simp; ring
    · dsimp only
      have : ((lon - 0) / (360 / (n : ℚ)) + 1 - 1) * (360 / n) + 0 = lon := by field_simp; ring
      rw [this, fmod_lt h0 h1]

example : Ring ⟨.A, 4, 2, 1, 0, 0, 0, [], [], ⟨0, 0, 1, 1⟩⟩ 4 ∧ Ring ⟨.B, 5, 3, 0, 0, 0, 0, [], [], ⟨0, 0, 1, 1⟩⟩ 4 ∧
    gdllfxy ⟨.A, 4, 2, 1, 0, 0, 0, [], [], ⟨0, 0, 1, 1⟩⟩ (5 / 2) 2 = some (135 / 2, 135) ∧
    gdxyfll ⟨.A, 4, 2, 1, 0, 0, 0, [], [], ⟨0, 0, 1, 1⟩⟩ (135 / 2) 135 = some ((5 / 2, 2), 135) ∧
    gdllfxy ⟨.B, 5, 3, 0, 0, 0, 0, [], [], ⟨0, 0, 1, 1⟩⟩ 5 3 = some (90, 0) ∧
    gdxyfll ⟨.B, 5, 3, 0, 0, 0, 0, [], [], ⟨0, 0, 1, 1⟩⟩ 90 0 = some ((1, 3), 0) := by
  refine ⟨by unfold Ring; decide, by unfold Ring; decide, ?_⟩
  decide +kernel

/-- **C108**, type L, for an origin between 0 and 360 degrees (what `cxgaig` makes of any origin): positions
from the first column to one column after the last, within one turn, come back.

Missing: the origin may also be given directly as a negative `ig4`, for which this is false
(`C108_L_witness`). -/
theorem C108_L_partial (g : Grille) (ht : g.typ = .L) (h1 : g.ig1 ≠ 0) (h2 : 0 < g.ig2) (h4 : 0 ≤ g.ig4)
    (h4' : g.ig4 < 36000) (x y : ℚ) (hx1 : 1 ≤ x) (hx2 : x ≤ g.ni + 1) (hx3 : (x - 1) * g.ig2 < 36000) :
    ∃ lat lon, gdllfxy g x y = some (lat, lon) ∧ gdxyfll g lat lon = some ((x, y), lon) := by
  have ht' : g.typ = .A ∨ g.typ = .B ∨ g.typ = .L := Or.inr (Or.inr ht)
  refine ⟨_, _, ab_llfxy ht' (by simp only [defxg, ht]; rfl) x y, ?_⟩
  rw [ab_xyfll ht']
  have q1 : (g.ig1 : ℚ) ≠ 0 := by exact_mod_cast h1
  have q2 : (0 : ℚ) < g.ig2 := by exact_mod_cast h2
  have q4 : (0 : ℚ) ≤ g.ig4 := by exact_mod_cast h4
  have q4' : (g.ig4 : ℚ) < 36000 := by exact_mod_cast h4'
  simp only [ll2rgd, ht, igaxgL]
  generalize hl : (x - 1) * ((g.ig2 : ℚ) * (1 / 100)) + g.ig4 * (1 / 100) = l
  have p1 : 0 ≤ (x - 1) * g.ig2 := mul_nonneg (by linarith) q2.le
  have p2 : (x - 1) * g.ig2 ≤ g.ni * g.ig2 := mul_le_mul_of_nonneg_right (by linarith) q2.le
  have l1 : (g.ig4 : ℚ) * (1 / 100) ≤ l := by rw [← hl]; linarith
  have l2 : l < g.ig4 * (1 / 100) + 360 := by rw [← hl]; linarith
  have l3 : l ≤ g.ig4 * (1 / 100) + g.ni * (g.ig2 * (1 / 100)) := by rw [← hl]; linarith
  -- what `fmod` and the two tests make of the longitude
  have key : shiftL (g.ig4 * (1 / 100)) (g.ig2 * (1 / 100)) g.ni (fmod (l + 360) 360) = l := by
    have hm : (if fmod (l + 360) 360 < (g.ig4 : ℚ) * (1 / 100) then fmod (l + 360) 360 + 360 else fmod (l + 360) 360) = l := by
      obtain ⟨k, e, p, _⟩ := fmod_spec (l + 360)
      obtain ⟨m1, m2⟩ := p (by linarith)
      generalize fmod (l + 360) 360 = m at *
      by_cases c : m < (g.ig4 : ℚ) * (1 / 100)
      · rw [if_pos c]
        exact turn_unique (s := g.ig4 * (1 / 100)) (k := k + 2) (by rw [e]; push_cast; ring) (by linarith) (by linarith) l1 l2
      · rw [if_neg c]
        exact turn_unique (s := g.ig4 * (1 / 100)) (k := k + 1) (by rw [e]; push_cast; ring) (not_lt.1 c) (by linarith) l1 l2
    simp only [shiftL]
    rw [hm, if_neg (not_lt.2 l3)]
  rw [key, llll2gd_eq (by positivity) (by positivity) (by linarith), Option.map_some]
  refine congrArg some (Prod.ext (Prod.ext ?_ ?_) rfl)
  · rw [← hl]; dsimp only; field_simp; ring
  · dsimp only; field_simp; ring

/-- Type L, the other way, for every origin. -/
theorem C108_L_back (g : Grille) (ht : g.typ = .L) (h1 : g.ig1 ≠ 0) (h2 : g.ig2 ≠ 0) (lat lon : ℚ) (h0 : 0 ≤ lon)
    (h3 : lon < 360) : ∃ x y, gdxyfll g lat lon = some ((x, y), lon) ∧ gdllfxy g x y = some (lat, lon) := by
  have ht' : g.typ = .A ∨ g.typ = .B ∨ g.typ = .L := Or.inr (Or.inr ht)
  have q1 : (g.ig1 : ℚ) ≠ 0 := by exact_mod_cast h1
  have q2 : (g.ig2 : ℚ) ≠ 0 := by exact_mod_cast h2
  rw [ab_xyfll ht']
  simp only [ll2rgd, ht, igaxgL]
  rw [llll2gd_wrap (by positivity) (by positivity), Option.map_some]
  generalize hN : wrap 0 (shiftL ((g.ig4 : ℚ) * (1 / 100)) (g.ig2 * (1 / 100)) g.ni lon) = l3
  generalize hM : shiftL ((g.ig4 : ℚ) * (1 / 100)) (g.ig2 * (1 / 100)) g.ni lon = l2 at hN
  rw [wrap, if_neg (by norm_num : ¬ (0 : ℚ) = -180)] at hN
  simp only [shiftL] at hM
  generalize hL : (if lon < (g.ig4 : ℚ) * (1 / 100) then lon + 360 else lon) = l1 at hM
  have e1 : ∃ k : ℤ, l1 = lon + 360 * k ∧ 0 ≤ k ∧ k ≤ 1 := by
    rw [← hL]; split_ifs
    · exact ⟨1, by norm_num, by norm_num, by norm_num⟩
    · exact ⟨0, by norm_num, by norm_num, by norm_num⟩
  have e2 : ∃ k : ℤ, l2 = lon + 360 * k ∧ -1 ≤ k ∧ k ≤ 1 := by
    obtain ⟨k, e, k1, k2⟩ := e1
    rw [← hM]; split_ifs
    · exact ⟨k - 1, by rw [e]; push_cast; ring, by omega, by omega⟩
    · exact ⟨k, e, by omega, k2⟩
  have e3 : ∃ k : ℤ, l3 = lon + 360 * k ∧ 0 ≤ l3 := by
    obtain ⟨k, e, k1, k2⟩ := e2
    have k1' : (-1 : ℚ) ≤ k := by exact_mod_cast k1
    rw [← hN]; split_ifs with c
    · exact ⟨k + 1, by rw [e]; push_cast; ring, by rw [e]; linarith⟩
    · exact ⟨k, e, not_lt.1 c⟩
  obtain ⟨k, e, hp⟩ := e3
  refine ⟨_, _, rfl, ?_⟩
  rw [ab_llfxy ht' (by simp only [defxg, ht]; rfl)]
  refine congrArg some (Prod.ext ?_ ?_)
  · simp only [igaxgL]; field_simp; ring
  · simp only [igaxgL]
    have : ((l3 - g.ig4 * (1 / 100)) / ((g.ig2 : ℚ) * (1 / 100)) + 1 - 1) * (g.ig2 * (1 / 100)) + g.ig4 * (1 / 100) = l3 := by
      field_simp; ring
    rw [this]
    obtain ⟨j, f, p, _⟩ := fmod_spec (l3 + 360)
    obtain ⟨p1, p2⟩ := p (by linarith)
    exact turn_unique (s := 0) (k := j + 1 + k) (by rw [f, e]; push_cast; ring) p1 (by linarith) h0 (by linarith)

example : gdllfxy ⟨.L, 20, 10, 100, 50, 0, 35500, [], [], ⟨0, 0, 1, 1⟩⟩ 13 4 = some (-87, 1) ∧
    gdxyfll ⟨.L, 20, 10, 100, 50, 0, 35500, [], [], ⟨0, 0, 1, 1⟩⟩ (-87) 1 = some ((13, 4), 1) := by decide +kernel

/-- A grid from 10 degrees west to 9 degrees east, its origin given as -10: the first point comes back as
number 361 of the 20 columns, since `ez_llll2gd` makes the longitude positive again. -/
theorem C108_L_witness : gdllfxy ⟨.L, 20, 10, 100, 100, 9000, -1000, [], [], ⟨0, 0, 1, 1⟩⟩ 1 1 = some (0, 350) ∧
    gdxyfll ⟨.L, 20, 10, 100, 100, 9000, -1000, [], [], ⟨0, 0, 1, 1⟩⟩ 0 350 = some ((361, 1), 350) := by decide +kernel

/-- The longitude an axis value stands for. -/
def lonOf (g : Grille) (v : ℚ) : ℚ := v * g.ref.dlon + g.ref.swlon

/-- The longitudes of the axis are within one of the two ranges known to `ez_llll2gd`, the one that the
sign of the first value selects. -/
def OneTurn (g : Grille) : Prop :=
  (∀ v ∈ g.ax, 0 ≤ v ∧ 0 ≤ lonOf g v ∧ lonOf g v < 360) ∨
    (g.ax.getD 0 0 < 0 ∧ ∀ v ∈ g.ax, -180 < lonOf g v ∧ lonOf g v ≤ 180)

theorem wrap_back {a l : ℚ} (h : (0 ≤ a ∧ 0 ≤ l ∧ l < 360) ∨ (a < 0 ∧ -180 < l ∧ l ≤ 180)) :
    wrap (if a < 0 then -180 else 0) (fmod (l + 360) 360) = l := by
  rcases h with ⟨h0, h1, h2⟩ | ⟨h0, h1, h2⟩
  · rw [if_neg (not_lt.2 h0), fmod_lt h1 h2, wrap, if_neg (by norm_num : ¬ (0 : ℚ) = -180), if_neg (not_lt.2 h1)]
  · rw [if_pos h0, wrap, if_pos rfl]
    obtain ⟨k, e, p, _⟩ := fmod_spec (l + 360)
    obtain ⟨p1, p2⟩ := p (by linarith)
    generalize fmod (l + 360) 360 = m at *
    by_cases c : m > 180
    · rw [if_pos c]
      have h := turn_unique (s := -180) (a := -(m - 360)) (b := -l) (k := -k) (by rw [e]; push_cast; ring)
        (by linarith) (by linarith) (by linarith) (by linarith)
      linarith
    · rw [if_neg c]
      have h := turn_unique (s := -180) (a := -m) (b := -l) (k := -(k + 1)) (by rw [e]; push_cast; ring)
        (by linarith) (by linarith) (by linarith) (by linarith)
      linarith

theorem wrap_lon (r lon : ℚ) (h0 : 0 ≤ lon) (h1 : lon < 360) : fmod (wrap r lon + 360) 360 = lon := by
  have h : ∃ k : ℤ, wrap r lon = lon + 360 * k ∧ -360 ≤ wrap r lon := by
    rw [wrap]
    split_ifs
    · exact ⟨-1, by push_cast; ring, by linarith⟩
    · exact ⟨0, by simp, by linarith⟩
    · exact ⟨1, by push_cast; ring, by linarith⟩
    · exact ⟨0, by simp, by linarith⟩
  obtain ⟨k, e, hp⟩ := h
  obtain ⟨j, f, p, _⟩ := fmod_spec (wrap r lon + 360)
  obtain ⟨p1, p2⟩ := p (by linarith)
  exact turn_unique (s := 0) (k := j + 1 + k) (by rw [f, e]; push_cast; ring) p1 (by linarith) h0 (by linarith)

/-- A grid with axes: sizes the search can handle, axes long enough and ascending. -/
structure Axes (g : Grille) (n2 : ℕ) : Prop where
  ni2 : 2 ≤ g.ni
  niM : g.ni ≤ 2 ^ 23
  nj2 : 2 ≤ n2
  njM : n2 ≤ 2 ^ 23
  lx : g.ax.length = g.ni
  ly : n2 ≤ g.ay.length
  ax : g.ax.Pairwise (· < ·)
  ay : g.ay.Pairwise (· < ·)
  dlon : 0 < g.ref.dlon
  dlat : 0 < g.ref.dlat

theorem Axes.ax0 {g : Grille} {n2 : ℕ} (h : Axes g n2) : get g.ax 0 = some (g.ax.getD 0 0) :=
  get_lt (i := 0) (by have := h.ni2; have := h.lx; omega)

/-- `ez_ll2igd` after the formulas of `gdllfxy`. -/
theorem igd_there {g : Grille} {n2 : ℕ} (h : Axes g n2) {x y tx ty : ℚ} (ex : onAxis g.ax (g.ni : ℤ) x = some tx)
    (ey : onAxis g.ay (n2 : ℤ) y = some ty)
    (hr : (0 ≤ g.ax.getD 0 0 ∧ 0 ≤ lonOf g tx ∧ lonOf g tx < 360) ∨ (g.ax.getD 0 0 < 0 ∧ -180 < lonOf g tx ∧ lonOf g tx ≤ 180)) :
    ll2igd g n2 (ty * g.ref.dlat + g.ref.swlat) (fmod (lonOf g tx + 360) 360) = some ((x, y), lonOf g tx) := by
  have hd := h.dlon
  have hc := h.dlat
  simp only [ll2igd, h.ax0, Option.bind_eq_bind, Option.bind_some]
  rw [llll2gd_wrap hd.ne' hc.ne', wrap_back hr]
  simp only [Option.bind_some]
  have e1 : (lonOf g tx - g.ref.swlon) / g.ref.dlon + 1 - 1 = tx := by simp only [lonOf]; field_simp; ring
  have e2 : (ty * g.ref.dlat + g.ref.swlat - g.ref.swlat) / g.ref.dlat + 1 - 1 = ty := by field_simp; ring
  rw [e1, e2]
  obtain ⟨v, f1, f2⟩ := axis_there h.ni2 h.niM (asc_of_pairwise h.ax h.lx.ge) x
  rw [ex] at f1
  obtain rfl := Option.some.inj f1
  obtain ⟨w, f3, f4⟩ := axis_there h.nj2 h.njM (asc_of_pairwise h.ay h.ly) y
  rw [ey] at f3
  obtain rfl := Option.some.inj f3
  simp only [f2, f4, Option.bind_some]

/-- Between the first and the last column an axis value is between two entries of the axis. -/
theorem onAxis_between {a : List ℚ} {n : ℕ} (hn : 2 ≤ n) (ha : Asc a n) {x v : ℚ} (h1 : 1 ≤ x) (h2 : x ≤ n)
    (e : onAxis a (n : ℤ) x = some v) : ∃ k, k + 1 < n ∧ a.getD k 0 ≤ v ∧ v ≤ a.getD (k + 1) 0 := by
  obtain ⟨k, k1, k2, k3, f⟩ := onAxis_eq hn ha.1 x
  rw [e] at f
  have f := Option.some.inj f
  have d := sub_pos.2 (ha.2 k (k + 1) (by omega) (by omega))
  have t0 : 0 ≤ x - 1 - k := by
    rcases k2 with q | q
    · subst q; push_cast; linarith
    · linarith
  have t1 : x - 1 - k ≤ 1 := by
    rcases k3 with q | q
    · have : (n : ℚ) = k + 2 := by rw [← q]; push_cast; ring
      linarith
    · linarith
  refine ⟨k, by omega, ?_, ?_⟩
  · rw [f]; have := mul_nonneg t0 d.le; linarith
  · rw [f]; have := mul_le_mul_of_nonneg_right t1 d.le; linarith

theorem inRange {g : Grille} {n2 : ℕ} (h : Axes g n2) (ho : OneTurn g) {x v : ℚ} (h1 : 1 ≤ x) (h2 : x ≤ g.ni)
    (e : onAxis g.ax (g.ni : ℤ) x = some v) :
    (0 ≤ g.ax.getD 0 0 ∧ 0 ≤ lonOf g v ∧ lonOf g v < 360) ∨ (g.ax.getD 0 0 < 0 ∧ -180 < lonOf g v ∧ lonOf g v ≤ 180) := by
  obtain ⟨k, k1, b1, b2⟩ := onAxis_between h.ni2 (asc_of_pairwise h.ax h.lx.ge) h1 h2 e
  have hd := h.dlon
  have hl := h.lx
  have hm : ∀ i, i < g.ni → g.ax.getD i 0 ∈ g.ax := by
    intro i hi
    rw [getD_lt (by omega)]; exact List.getElem_mem _
  have c1 : lonOf g (g.ax.getD k 0) ≤ lonOf g v := by
    have := mul_le_mul_of_nonneg_right b1 hd.le
    simp only [lonOf]; linarith
  have c2 : lonOf g v ≤ lonOf g (g.ax.getD (k + 1) 0) := by
    have := mul_le_mul_of_nonneg_right b2 hd.le
    simp only [lonOf]; linarith
  rcases ho with ho | ⟨hneg, ho⟩
  · have q0 := ho _ (hm 0 (by omega))
    have q1 := ho _ (hm k (by omega))
    have q2 := ho _ (hm (k + 1) (by omega))
    exact Or.inl ⟨q0.1, by linarith, by linarith⟩
  · have q1 := ho _ (hm k (by omega))
    have q2 := ho _ (hm (k + 1) (by omega))
    exact Or.inr ⟨hneg, by linarith, by linarith⟩

theorem zg_llfxy {g : Grille} (ht : g.typ = .Z ∨ g.typ = .G) {x y tx ty : ℚ} (ex : onAxis g.ax (g.ni : ℤ) x = some tx)
    (ey : onAxis g.ay (j2 g) (if g.ig2 = 1 then g.nj + 1 - y else y) = some ty) :
    gdllfxy g x y = some (ty * g.ref.dlat + g.ref.swlat, fmod (lonOf g tx + 360) 360) := by
  rcases ht with ht | ht <;>
    simp only [gdllfxy, gdllfxyWith, ht, ex, ey, lonOf, true_and, Option.bind_eq_bind, Option.bind_some]

/-- **C108**, grids with axes (Z and `#` over L): a position between the first and the last column comes
back, in every row, when the axis keeps within one of the two ranges of longitude.

Missing: `ig2 = 1`, for which the row comes back reversed (`C108_Z_flip_witness`), and axes that cross
longitude 0 or 180 (`C108_Z_cross_witness`). -/
theorem C108_Z_partial (g : Grille) (ht : g.typ = .Z) (h : Axes g g.nj) (ho : OneTurn g) (h2 : g.ig2 ≠ 1) (x y : ℚ)
    (hx1 : 1 ≤ x) (hx2 : x ≤ g.ni) :
    ∃ lat lon lon', gdllfxy g x y = some (lat, lon) ∧ gdxyfll g lat lon = some ((x, y), lon') := by
  obtain ⟨tx, ex, _⟩ := axis_there h.ni2 h.niM (asc_of_pairwise h.ax h.lx.ge) x
  obtain ⟨ty, ey, _⟩ := axis_there h.nj2 h.njM (asc_of_pairwise h.ay h.ly) y
  have hj : j2 g = g.nj := by simp only [j2, ht]
  refine ⟨_, _, lonOf g tx, zg_llfxy (Or.inl ht) ex (by rw [if_neg h2, hj]; exact ey), ?_⟩
  simp only [gdxyfll, ht, hj, Int.toNat_natCast, igd_there h ex ey (inRange h ho hx1 hx2 ex), Option.bind_eq_bind,
    Option.bind_some]
  simp

/-- Grids with axes, the other way: every latitude and longitude comes back, whatever the axes. -/
theorem C108_Z_back (g : Grille) (ht : g.typ = .Z) (h : Axes g g.nj) (h2 : g.ig2 ≠ 1) (lat lon : ℚ) (h0 : 0 ≤ lon)
    (h1 : lon < 360) : ∃ x y lon', gdxyfll g lat lon = some ((x, y), lon') ∧ gdllfxy g x y = some (lat, lon) := by
  have hd := h.dlon
  have hc := h.dlat
  have hj : j2 g = g.nj := by simp only [j2, ht]
  generalize hr : (if g.ax.getD 0 0 < 0 then (-180 : ℚ) else 0) = r
  obtain ⟨x, ex, fx⟩ := axis_back h.ni2 h.niM (asc_of_pairwise h.ax h.lx.ge) ((wrap r lon - g.ref.swlon) / g.ref.dlon + 1 - 1)
  obtain ⟨y, ey, fy⟩ := axis_back h.nj2 h.njM (asc_of_pairwise h.ay h.ly) ((lat - g.ref.swlat) / g.ref.dlat + 1 - 1)
  refine ⟨x, y, wrap r lon, ?_, ?_⟩
  · simp only [gdxyfll, ht, hj, Int.toNat_natCast, ll2igd, h.ax0, Option.bind_eq_bind, Option.bind_some, hr]
    rw [llll2gd_wrap hd.ne' hc.ne']
    simp only [Option.bind_some, ex, ey]
    simp
  · rw [zg_llfxy (Or.inl ht) fx (by rw [if_neg h2, hj]; exact fy)]
    refine congrArg some (Prod.ext ?_ ?_)
    · dsimp only; field_simp; ring
    · dsimp only
      have : lonOf g ((wrap r lon - g.ref.swlon) / g.ref.dlon + 1 - 1) = wrap r lon := by
        simp only [lonOf]; field_simp; ring
      rw [this, wrap_lon r lon h0 h1]

/-- With `ig2 = 1` a grid with axes gives back the row counted from the other end: `gdllfxy` turns the rows
of every grid with axes, `gdxyfll` only those of Gaussian grids. -/
theorem C108_Z_flip_witness (g : Grille) (ht : g.typ = .Z) (h : Axes g g.nj) (ho : OneTurn g) (h2 : g.ig2 = 1) (x y : ℚ)
    (hx1 : 1 ≤ x) (hx2 : x ≤ g.ni) :
    ∃ lat lon lon', gdllfxy g x y = some (lat, lon) ∧ gdxyfll g lat lon = some ((x, g.nj + 1 - y), lon') := by
  obtain ⟨tx, ex, _⟩ := axis_there h.ni2 h.niM (asc_of_pairwise h.ax h.lx.ge) x
  obtain ⟨ty, ey, _⟩ := axis_there h.nj2 h.njM (asc_of_pairwise h.ay h.ly) (g.nj + 1 - y)
  have hj : j2 g = g.nj := by simp only [j2, ht]
  refine ⟨_, _, lonOf g tx, zg_llfxy (Or.inl ht) ex (by rw [if_pos h2, hj]; exact ey), ?_⟩
  simp only [gdxyfll, ht, hj, Int.toNat_natCast, igd_there h ex ey (inRange h ho hx1 hx2 ex), Option.bind_eq_bind,
    Option.bind_some]
  simp

/-- A small grid with axes that meets the hypotheses, and the same with `ig2 = 1`. -/
def exZ (ig2 : ℤ) : Grille := ⟨.Z, 3, 3, 0, ig2, 0, 0, [-20, -5, 40], [-10, 20, 30], ⟨0, 0, 1, 1⟩⟩

theorem exZ_ok (ig2 : ℤ) : Axes (exZ ig2) 3 ∧ OneTurn (exZ ig2) := by
  constructor
  · constructor <;> simp [exZ] <;> norm_num
  · right; simp [exZ, lonOf]; norm_num

example : gdllfxy (exZ 0) (3 / 2) 2 = some (20, 695 / 2) ∧ gdxyfll (exZ 0) 20 (695 / 2) = some ((3 / 2, 2), -(25 / 2)) ∧
    gdllfxy (exZ 1) 1 1 = some (30, 340) ∧ gdxyfll (exZ 1) 30 340 = some ((1, 3), -20) := by decide +kernel

/-- An axis from 350 to 370 degrees: the fourth column, at 5 degrees east, comes back as number -68. -/
theorem C108_Z_cross_witness :
    gdllfxy ⟨.Z, 5, 2, 0, 0, 0, 0, [350, 355, 360, 365, 370], [0, 10], ⟨0, 0, 1, 1⟩⟩ 4 1 = some (0, 5) ∧
    gdxyfll ⟨.Z, 5, 2, 0, 0, 0, 0, [350, 355, 360, 365, 370], [0, 10], ⟨0, 0, 1, 1⟩⟩ 0 5 = some ((-68, 1), 5) := by
  decide +kernel

/-- A Gaussian grid as `c_ezdefaxes` makes it (ez_defaxes.c:67-107): equally spaced meridians from 0, and
`n2` ascending latitudes, all of them for the globe and those of both hemispheres for one hemisphere. -/
structure Gauss (g : Grille) : Prop where
  typ : g.typ = .G
  ax : g.ax = (List.range g.ni).map fun (i : ℕ) => (i : ℚ) * (360 / (g.ni : ℚ))
  ref : g.ref = ⟨0, 0, 1, 1⟩
  ni2 : 2 ≤ g.ni
  niM : g.ni ≤ 2 ^ 23
  nj2 : 2 ≤ g.nj
  njM : 2 * g.nj ≤ 2 ^ 23
  ly : (g.ig1 = 0 ∧ g.ay.length = g.nj) ∨ ((g.ig1 = 1 ∨ g.ig1 = 2) ∧ g.ay.length = 2 * g.nj)
  ay : g.ay.Pairwise (· < ·)

theorem Gauss.axes {g : Grille} (h : Gauss g) {n2 : ℕ} (h2 : 2 ≤ n2) (hM : n2 ≤ 2 ^ 23) (hl : n2 ≤ g.ay.length) : Axes g n2 := by
  have hn : (0 : ℚ) < g.ni := by exact_mod_cast (by have := h.ni2; omega : 0 < g.ni)
  refine ⟨h.ni2, h.niM, h2, hM, by rw [h.ax]; simp, hl, ?_, h.ay, by rw [h.ref]; norm_num, by rw [h.ref]; norm_num⟩
  rw [h.ax, List.pairwise_map]
  refine List.Pairwise.imp ?_ List.pairwise_lt_range
  intro a b hab
  have : (a : ℚ) < b := by exact_mod_cast hab
  exact mul_lt_mul_of_pos_right this (by positivity)

theorem Gauss.onAxis {g : Grille} (h : Gauss g) (x : ℚ) : onAxis g.ax (g.ni : ℤ) x = some ((x - 1) * (360 / g.ni)) := by
  have hl : g.ax.length = g.ni := by rw [h.ax]; simp
  obtain ⟨k, k1, k2, k3, e⟩ := onAxis_eq h.ni2 hl.ge x
  rw [e]
  have hg : ∀ i, i < g.ni → g.ax.getD i 0 = i * (360 / g.ni) := by
    intro i hi
    rw [getD_lt (by omega)]
    simp only [h.ax, List.getElem_map, List.getElem_range]
  rw [hg k (by omega), hg (k + 1) (by omega)]
  congr 1
  push_cast; ring

theorem Gauss.range {g : Grille} (h : Gauss g) {x : ℚ} (h1 : 1 ≤ x) (h2 : x < g.ni + 1) :
    0 ≤ g.ax.getD 0 0 ∧ 0 ≤ lonOf g ((x - 1) * (360 / g.ni)) ∧ lonOf g ((x - 1) * (360 / g.ni)) < 360 := by
  have hn : (0 : ℚ) < g.ni := by exact_mod_cast (by have := h.ni2; omega : 0 < g.ni)
  have hi := h.ni2
  refine ⟨?_, ?_, ?_⟩
  · have hl : 0 < g.ax.length := by rw [h.ax]; simp; omega
    rw [getD_lt hl]; simp [h.ax]
  · simp only [lonOf, h.ref]
    have := mul_nonneg (by linarith : 0 ≤ x - 1) (by positivity : 0 ≤ 360 / (g.ni : ℚ))
    linarith
  · simp only [lonOf, h.ref]
    have := mul_lt_mul_of_pos_right (by linarith : x - 1 < g.ni) (by positivity : 0 < 360 / (g.ni : ℚ))
    have e : (g.ni : ℚ) * (360 / g.ni) = 360 := by field_simp
    linarith

/-- **C108**, Gaussian grids over the globe (rows in either order) and over the southern hemisphere (rows
from the pole): positions of the first turn come back in every row.

Missing: the northern hemisphere (`C108_G_north_witness`) and southern rows in the other order
(`C108_G_south_flip_witness`). -/
theorem C108_G_partial (g : Grille) (h : Gauss g) (hc : g.ig1 = 0 ∨ (g.ig1 = 2 ∧ g.ig2 ≠ 1)) (x y : ℚ)
    (hx1 : 1 ≤ x) (hx2 : x < g.ni + 1) :
    ∃ lat lon lon', gdllfxy g x y = some (lat, lon) ∧ gdxyfll g lat lon = some ((x, y), lon') := by
  have hly := h.ly
  have hM := h.njM
  have hJ := h.nj2
  obtain ⟨n2, hj, A⟩ : ∃ n2 : ℕ, j2 g = n2 ∧ Axes g n2 ∧ (g.ig1 = 0 → n2 = g.nj) := by
    rcases hc with hc | ⟨hc, _⟩
    · refine ⟨g.nj, by simp only [j2, h.typ, hc]; simp, h.axes hJ (by omega) (by omega), fun _ => rfl⟩
    · refine ⟨2 * g.nj, by simp only [j2, h.typ, hc]; simp, h.axes (by omega) (by omega) (by omega), fun q => by omega⟩
  obtain ⟨A, hn2⟩ := A
  obtain ⟨ty, ey, _⟩ := axis_there A.nj2 A.njM (asc_of_pairwise A.ay A.ly) (if g.ig2 = 1 then g.nj + 1 - y else y)
  refine ⟨_, _, lonOf g ((x - 1) * (360 / g.ni)), zg_llfxy (Or.inr h.typ) (h.onAxis x) (by rw [hj]; exact ey), ?_⟩
  simp only [gdxyfll, h.typ, hj, Int.toNat_natCast, igd_there A (h.onAxis x) ey (Or.inl (h.range hx1 hx2)), Option.bind_eq_bind,
    Option.bind_some]
  have h1 : ¬ (g.ig1 = 1) := by rcases hc with q | q <;> omega
  simp only [h1, and_false, if_false, true_and]
  by_cases c : g.ig2 = 1
  · have : n2 = g.nj := hn2 (by tauto)
    simp only [if_pos c, this]
    refine congrArg some (Prod.ext (Prod.ext rfl ?_) rfl)
    dsimp only; push_cast; ring
  · simp only [if_neg c]

/-- On a Gaussian grid over the northern hemisphere every position comes back `nj` rows too low, and
`gdllfxy` gives southern latitudes: `j2` is `nj`, while the axis holds both hemispheres from the south. -/
theorem C108_G_north_witness (g : Grille) (h : Gauss g) (h1 : g.ig1 = 1) (h2 : g.ig2 ≠ 1) (x y : ℚ)
    (hx1 : 1 ≤ x) (hx2 : x < g.ni + 1) :
    ∃ lat lon lon', gdllfxy g x y = some (lat, lon) ∧ gdxyfll g lat lon = some ((x, y - g.nj), lon') ∧
      (1 ≤ y → y ≤ g.nj → (∀ j < g.nj, g.ay.getD j 0 < 0) → lat < 0) := by
  have hly := h.ly
  have hM := h.njM
  have hJ := h.nj2
  have hj : j2 g = (g.nj : ℕ) := by simp only [j2, h.typ, h1]; simp
  have A : Axes g g.nj := h.axes hJ (by omega) (by omega)
  obtain ⟨ty, ey, _⟩ := axis_there A.nj2 A.njM (asc_of_pairwise A.ay A.ly) y
  refine ⟨_, _, lonOf g ((x - 1) * (360 / g.ni)), zg_llfxy (Or.inr h.typ) (h.onAxis x) (by rw [hj, if_neg h2]; exact ey), ?_, ?_⟩
  · simp only [gdxyfll, h.typ, hj, Int.toNat_natCast, igd_there A (h.onAxis x) ey (Or.inl (h.range hx1 hx2)), Option.bind_eq_bind,
      Option.bind_some]
    simp [h1, h2]
  · intro y1 y2 hneg
    obtain ⟨k, k1, b1, b2⟩ := onAxis_between A.nj2 (asc_of_pairwise A.ay A.ly) y1 y2 ey
    have := hneg (k + 1) k1
    rw [h.ref]; dsimp only; linarith

/-- On a Gaussian grid over the southern hemisphere with rows in the other order every position comes back
`nj` rows too high. -/
theorem C108_G_south_flip_witness (g : Grille) (h : Gauss g) (h1 : g.ig1 = 2) (h2 : g.ig2 = 1) (x y : ℚ)
    (hx1 : 1 ≤ x) (hx2 : x < g.ni + 1) :
    ∃ lat lon lon', gdllfxy g x y = some (lat, lon) ∧ gdxyfll g lat lon = some ((x, y + g.nj), lon') := by
  have hly := h.ly
  have hM := h.njM
  have hJ := h.nj2
  have hj : j2 g = (2 * g.nj : ℕ) := by simp only [j2, h.typ, h1]; simp
  have A : Axes g (2 * g.nj) := h.axes (by omega) (by omega) (by omega)
  obtain ⟨ty, ey, _⟩ := axis_there A.nj2 A.njM (asc_of_pairwise A.ay A.ly) (g.nj + 1 - y)
  refine ⟨_, _, lonOf g ((x - 1) * (360 / g.ni)), zg_llfxy (Or.inr h.typ) (h.onAxis x) (by rw [hj, if_pos h2]; exact ey), ?_⟩
  simp only [gdxyfll, h.typ, hj, Int.toNat_natCast, igd_there A (h.onAxis x) ey (Or.inl (h.range hx1 hx2)), Option.bind_eq_bind,
    Option.bind_some]
  have e : ((2 * g.nj : ℕ) : ℚ) + 1 - (g.nj + 1 - y) = y + g.nj := by push_cast; ring
  simp only [h1, h2, and_true, if_true]
  rw [if_neg (by decide)]
  refine congrArg some (Prod.ext (Prod.ext rfl ?_) rfl)
  dsimp only
  exact_mod_cast e

/-- Gaussian grids of four meridians and two rows in each hemisphere (latitudes rounded to degrees). -/
def exG (ig1 ig2 : ℤ) (nj : ℕ) : Grille := ⟨.G, 4, nj, ig1, ig2, 0, 0, [0, 90, 180, 270], [-60, -20, 20, 60], ⟨0, 0, 1, 1⟩⟩

theorem exG_ok (ig2 : ℤ) : Gauss (exG 0 ig2 4) ∧ Gauss (exG 1 ig2 2) ∧ Gauss (exG 2 ig2 2) := by
  refine ⟨?_, ?_, ?_⟩ <;> constructor <;> simp [exG, List.range_succ] <;> norm_num

example : gdllfxy (exG 0 1 4) (9 / 2) (3 / 2) = some (40, 315) ∧ gdxyfll (exG 0 1 4) 40 315 = some ((9 / 2, 3 / 2), 315) ∧
    gdllfxy (exG 1 0 2) 1 2 = some (-20, 0) ∧ gdxyfll (exG 1 0 2) (-20) 0 = some ((1, 0), 0) ∧
    gdllfxy (exG 2 1 2) 1 2 = some (-60, 0) ∧ gdxyfll (exG 2 1 2) (-60) 0 = some ((1, 4), 0) := by decide +kernel

/-! ## C109: `gdll` and `gdllfxy` agree on the points of the grid -/

theorem fmod_twice {a : ℚ} (h : -360 ≤ a) : fmod (fmod a 360 + 360) 360 = fmod (a + 360) 360 := by
  obtain ⟨k, e, p, q⟩ := fmod_spec a
  have hm : -360 < fmod a 360 := by
    rcases lt_or_ge a 0 with c | c
    · exact (q c).1
    · linarith [(p c).1]
  obtain ⟨k2, e2, p2, _⟩ := fmod_spec (fmod a 360 + 360)
  obtain ⟨k3, e3, p3, _⟩ := fmod_spec (a + 360)
  have c2 := p2 (by linarith)
  have c3 := p3 (by linarith)
  exact turn_unique (s := 0) (k := k2 + k - k3) (by rw [e2, e3, e]; push_cast; ring) c2.1 (by linarith) c3.1 (by linarith)

theorem fmod_add {a : ℚ} (h : 0 ≤ a) : fmod a 360 = fmod (a + 360) 360 := by
  obtain ⟨k2, e2, p2, _⟩ := fmod_spec a
  obtain ⟨k3, e3, p3, _⟩ := fmod_spec (a + 360)
  have c2 := p2 h
  have c3 := p3 (by linarith)
  exact turn_unique (s := 0) (k := k2 - k3 - 1) (by rw [e2, e3]; push_cast; ring) c2.1 (by linarith) c3.1 (by linarith)

/-- **C109**, the grids for which it holds: types A and B with rows from the south, L from an origin not
negative, grids with axes and rows in the order of the axis, and Gaussian grids over the globe or the
southern hemisphere with rows in either order.  Point `i`, `j` counts from 0.

Missing: the grids of `C109_A_witness`, `C109_Z_witness`, `C109_G_north_witness` and `C109_L_witness`. -/
theorem C109_partial (g : Grille) (i j : ℕ) (hi : i < g.ni) (hj : j < g.nj)
    (h : ((∃ n, Ring g n) ∧ g.ig2 ≠ 1) ∨ (g.typ = .L ∧ 0 ≤ g.ig2 ∧ 0 ≤ g.ig4) ∨
      (g.typ = .Z ∧ Axes g g.nj ∧ g.ig2 ≠ 1 ∧ ∀ v ∈ g.ax, -360 ≤ lonOf g v) ∨
      (Gauss g ∧ g.ig1 ≠ 1)) :
    ∃ lat lon, calclatlon g i j = some (lat, lon) ∧ gdllfxy g (i + 1) (j + 1) = some (lat, lon) := by
  rcases h with ⟨⟨n, h⟩, h2⟩ | ⟨ht, h2, h4⟩ | ⟨ht, h, h2, hr⟩ | ⟨h, h1⟩
  · obtain ⟨a, c, hc, hn, hx, ht, -⟩ := ring_same h
    have ht' : g.typ = .A ∨ g.typ = .B ∨ g.typ = .L := ht.elim Or.inl (Or.inr ∘ Or.inl)
    have hp : (0 : ℚ) ≤ 0 + i * (360 / n) := by positivity
    refine ⟨_, _, ?_, ab_llfxy ht' hx _ _⟩
    have e : calclatlon g i j = some (a + j * c, fmod (0 + i * (360 / n)) 360) := by
      rcases ht with ht | ht <;> simp [calclatlon, ht, hx, h2]
    rw [e, fmod_add hp]
    refine congrArg some (Prod.ext ?_ ?_)
    · dsimp only; ring
    · dsimp only; congr 1; ring
  · have q2 : (0 : ℚ) ≤ g.ig2 := by exact_mod_cast h2
    have q4 : (0 : ℚ) ≤ g.ig4 := by exact_mod_cast h4
    have hx : defxg g = some (igaxgL g.ig1 g.ig2 g.ig3 g.ig4) := by simp only [defxg, ht]
    refine ⟨_, _, ?_, ab_llfxy (Or.inr (Or.inr ht)) hx _ _⟩
    have hp : (0 : ℚ) ≤ (igaxgL g.ig1 g.ig2 g.ig3 g.ig4).swlon + i * (igaxgL g.ig1 g.ig2 g.ig3 g.ig4).dlon := by
      simp only [igaxgL]; positivity
    have e : calclatlon g i j = some ((igaxgL g.ig1 g.ig2 g.ig3 g.ig4).swlat + j * (igaxgL g.ig1 g.ig2 g.ig3 g.ig4).dlat,
        fmod ((igaxgL g.ig1 g.ig2 g.ig3 g.ig4).swlon + i * (igaxgL g.ig1 g.ig2 g.ig3 g.ig4).dlon) 360) := by
      simp [calclatlon, ht, hx]
    rw [e, fmod_add hp]
    refine congrArg some (Prod.ext ?_ ?_)
    · dsimp only; ring
    · dsimp only; congr 1; ring
  · have hjj : j2 g = (g.nj : ℕ) := by simp only [j2, ht]
    have ex := onAxis_int (a := g.ax) h.ni2 h.lx.ge hi
    have ey := onAxis_int (a := g.ay) h.nj2 h.ly hj
    refine ⟨_, _, ?_, zg_llfxy (Or.inl ht) ex (by rw [if_neg h2, hjj]; exact ey)⟩
    have gx : get g.ax (i : ℤ) = some (g.ax.getD i 0) := get_lt (by have := h.lx; omega)
    have gy : get g.ay (j : ℤ) = some (g.ay.getD j 0) := get_lt (by have := h.ly; omega)
    have hv := hr (g.ax.getD i 0) (by rw [getD_lt (by have := h.lx; omega)]; exact List.getElem_mem _)
    have e : calclatlon g i j = some (g.ref.swlat + g.ref.dlat * (g.ay.getD j 0 + 1 - 1),
        fmod (fmod (g.ref.swlon + g.ref.dlon * (g.ax.getD i 0 + 1 - 1)) 360 + 360) 360) := by
      simp [calclatlon, ht, gx, gy]
    have e1 : g.ref.swlon + g.ref.dlon * (g.ax.getD i 0 + 1 - 1) = lonOf g (g.ax.getD i 0) := by simp only [lonOf]; ring
    rw [e, e1, fmod_twice hv]
    refine congrArg some (Prod.ext ?_ rfl)
    dsimp only; ring
  · have hly := h.ly
    have hnj := h.nj2
    obtain ⟨n2, hj2, hn2, hl2, hk⟩ : ∃ n2 : ℕ, j2 g = n2 ∧ g.nj ≤ n2 ∧ n2 ≤ g.ay.length ∧ True := by
      rcases hly with ⟨a, b⟩ | ⟨a | a, b⟩
      · exact ⟨g.nj, by simp [j2, h.typ, a], le_refl _, by omega, trivial⟩
      · exact absurd a h1
      · exact ⟨2 * g.nj, by simp [j2, h.typ, a], by omega, by omega, trivial⟩
    have hlx : g.ax.length = g.ni := by rw [h.ax]; simp
    have ex := onAxis_int (a := g.ax) h.ni2 hlx.ge hi
    generalize hJ : (if g.ig2 = 1 then g.nj - 1 - j else j) = J
    have hJl : J < g.nj := by rw [← hJ]; split_ifs <;> omega
    have hJe : (if g.ig2 = 1 then (g.nj : ℚ) + 1 - (j + 1) else j + 1) = (J : ℚ) + 1 := by
      rw [← hJ]
      split_ifs
      · have : ((g.nj - 1 - j : ℕ) : ℚ) = g.nj - 1 - j := by
          rw [Nat.cast_sub (by omega), Nat.cast_sub (by omega)]; simp
        rw [this]; ring
      · rfl
    have ey := onAxis_int (a := g.ay) (n := n2) (i := J) (by omega) hl2 (by omega)
    refine ⟨_, _, ?_, zg_llfxy (Or.inr h.typ) ex (by rw [hJe, hj2]; exact ey)⟩
    have gx : get g.ax (i : ℤ) = some (g.ax.getD i 0) := get_lt (by omega)
    have gy : get g.ay (J : ℤ) = some (g.ay.getD J 0) := get_lt (by omega)
    have e : calclatlon g i j = some (g.ref.swlat + g.ref.dlat * (g.ay.getD J 0 + 1 - 1),
        fmod (fmod (g.ref.swlon + g.ref.dlon * (g.ax.getD i 0 + 1 - 1)) 360 + 360) 360) := by
      simp [calclatlon, h.typ, hJ, h1, gx, gy]
    have e1 : g.ref.swlon + g.ref.dlon * (g.ax.getD i 0 + 1 - 1) = lonOf g (g.ax.getD i 0) := by simp only [lonOf]; ring
    have hv : -360 ≤ lonOf g (g.ax.getD i 0) := by
      have : g.ax.getD i 0 = i * (360 / g.ni) := by
        rw [getD_lt (by omega)]; simp only [h.ax, List.getElem_map, List.getElem_range]
      rw [this]
      simp only [lonOf, h.ref]
      have : (0 : ℚ) ≤ i * (360 / g.ni) * 1 + 0 := by positivity
      linarith
    rw [e, e1, fmod_twice hv]
    refine congrArg some (Prod.ext ?_ rfl)
    dsimp only; ring

example : calclatlon (exZ 0) 0 1 = some (20, 340) ∧ gdllfxy (exZ 0) 1 2 = some (20, 340) ∧
    calclatlon (exG 2 1 2) 3 0 = some (-20, 270) ∧ gdllfxy (exG 2 1 2) 4 1 = some (-20, 270) ∧
    calclatlon ⟨.L, 20, 10, 100, 50, 0, 35500, [], [], ⟨0, 0, 1, 1⟩⟩ 12 3 = some (-87, 1) := by decide +kernel

/-- Rows from the north on a grid of type A: `gdll` turns them, `gdllfxy` does not. -/
theorem C109_A_witness : calclatlon ⟨.A, 4, 2, 0, 1, 0, 0, [], [], ⟨0, 0, 1, 1⟩⟩ 0 0 = some (45, 0) ∧
    gdllfxy ⟨.A, 4, 2, 0, 1, 0, 0, [], [], ⟨0, 0, 1, 1⟩⟩ 1 1 = some (-45, 0) := by decide +kernel

/-- `ig2 = 1` on a grid with axes: `gdllfxy` turns the rows, `gdll` does not. -/
theorem C109_Z_witness : calclatlon (exZ 1) 0 0 = some (-10, 340) ∧ gdllfxy (exZ 1) 1 1 = some (30, 340) := by decide +kernel

/-- A Gaussian grid over the northern hemisphere: `gdll` gives northern latitudes, `gdllfxy` southern. -/
theorem C109_G_north_witness : calclatlon (exG 1 0 2) 0 0 = some (20, 0) ∧ gdllfxy (exG 1 0 2) 1 1 = some (-60, 0) := by
  decide +kernel

/-- An origin given as a negative `ig4`: `gdll` leaves the longitude negative. -/
theorem C109_L_witness : calclatlon ⟨.L, 20, 10, 100, 100, 9000, -1000, [], [], ⟨0, 0, 1, 1⟩⟩ 0 0 = some (0, -10) ∧
    gdllfxy ⟨.L, 20, 10, 100, 100, 9000, -1000, [], [], ⟨0, 0, 1, 1⟩⟩ 1 1 = some (0, 350) := by decide +kernel

/-! ## C110: positions in a source grid do not depend on other interpolations -/

theorem wrap_turns (r lon : ℚ) : ∃ k : ℤ, wrap r lon = lon + 360 * k := by
  rw [wrap]
  split_ifs
  · exact ⟨-1, by push_cast; ring⟩
  · exact ⟨0, by simp⟩
  · exact ⟨1, by push_cast; ring⟩
  · exact ⟨0, by simp⟩

theorem llll2gd_left {lat lon a b c d r l : ℚ} {p : ℚ × ℚ} (h : llll2gd lat lon a b c d r = some (p, l)) : l = wrap r lon := by
  simp only [llll2gd] at h
  split_ifs at h
  simp only [Option.some.injEq, Prod.mk.injEq] at h
  exact h.2.symm

theorem if_turns (c : Prop) [Decidable c] (lon : ℚ) : ∃ k : ℤ, (if c then lon + 360 else lon) = lon + 360 * k := by
  split_ifs
  · exact ⟨1, by push_cast; ring⟩
  · exact ⟨0, by simp⟩

theorem shiftL_turns (a d : ℚ) (n : ℕ) (lon : ℚ) : ∃ k : ℤ, shiftL a d n lon = lon + 360 * k := by
  simp only [shiftL]
  obtain ⟨k, e⟩ := if_turns (lon < a) lon
  rw [e]
  split_ifs
  · exact ⟨k - 1, by push_cast; ring⟩
  · exact ⟨k, rfl⟩

theorem ll2igd_left {g : Grille} {nj : ℕ} {lat lon l : ℚ} {p : ℚ × ℚ} (h : ll2igd g nj lat lon = some (p, l)) :
    ∃ a, get g.ax 0 = some a ∧ l = wrap (if a < 0 then -180 else 0) lon := by
  simp only [ll2igd, Option.bind_eq_bind] at h
  obtain ⟨a, e, h⟩ := Option.bind_eq_some_iff.1 h
  obtain ⟨⟨⟨px, py⟩, m⟩, e2, h⟩ := Option.bind_eq_some_iff.1 h
  obtain ⟨x, _, h⟩ := Option.bind_eq_some_iff.1 h
  obtain ⟨y, _, h⟩ := Option.bind_eq_some_iff.1 h
  simp only [Option.some.injEq, Prod.mk.injEq] at h
  exact ⟨a, e, by rw [← h.2]; exact llll2gd_left e2⟩

theorem ll2rgd_left {g : Grille} {lat lon l : ℚ} {p : ℚ × ℚ} (h : ll2rgd g lat lon = some (p, l)) :
    ((g.typ = .A ∨ g.typ = .B) ∧ l = wrap 0 (if lon < 0 then lon + 360 else lon)) ∨
      (g.typ = .L ∧ l = wrap 0 (shiftL (g.ig4 * (1 / 100)) (g.ig2 * (1 / 100)) g.ni lon)) := by
  rcases ht : g.typ with _ | _ | _ | _ | _
  · left
    refine ⟨Or.inl rfl, ?_⟩
    simp only [ll2rgd, ht] at h
    generalize (if lon < 0 then lon + 360 else lon) = m at h ⊢
    split_ifs at h <;> exact llll2gd_left h
  · left
    refine ⟨Or.inr rfl, ?_⟩
    simp only [ll2rgd, ht] at h
    generalize (if lon < 0 then lon + 360 else lon) = m at h ⊢
    split_ifs at h <;> exact llll2gd_left h
  · right
    refine ⟨rfl, ?_⟩
    simp only [ll2rgd, ht] at h
    exact llll2gd_left h
  · simp [ll2rgd, ht] at h
  · simp [ll2rgd, ht] at h

theorem calcxy_left {g : Grille} {lat lon l : ℚ} {p : ℚ × ℚ} (h : calcxy g lat lon = some (p, l)) :
    ((g.typ = .A ∨ g.typ = .B) ∧ l = wrap 0 (if lon < 0 then lon + 360 else lon)) ∨
      (g.typ = .L ∧ l = wrap 0 (shiftL (g.ig4 * (1 / 100)) (g.ig2 * (1 / 100)) g.ni lon)) ∨
      ((g.typ = .Z ∨ g.typ = .G) ∧ ∃ a, get g.ax 0 = some a ∧ l = wrap (if a < 0 then -180 else 0) lon) := by
  have zg : (g.typ = .Z ∨ g.typ = .G) → calcxy g lat lon = (do
      let ((px, py), lon) ← ll2igd g g.nj lat lon
      let py := if g.typ = .G ∧ g.ig1 = 1 then py - g.nj else py
      some ((px, py), lon)) := by
    intro ht
    rcases ht with ht | ht <;> simp only [calcxy, ht]
  have abl : (g.typ = .A ∨ g.typ = .B ∨ g.typ = .L) → calcxy g lat lon = ll2rgd g lat lon := by
    intro ht
    rcases ht with ht | ht | ht <;> simp only [calcxy, ht]
  by_cases c : g.typ = .Z ∨ g.typ = .G
  · rw [zg c, Option.bind_eq_bind] at h
    obtain ⟨⟨⟨px, py⟩, m⟩, e, h⟩ := Option.bind_eq_some_iff.1 h
    simp only [Option.some.injEq, Prod.mk.injEq] at h
    obtain ⟨a, ea, el⟩ := ll2igd_left e
    exact Or.inr (Or.inr ⟨c, a, ea, by rw [← h.2]; exact el⟩)
  · have c' : g.typ = .A ∨ g.typ = .B ∨ g.typ = .L := by
      rcases ht : g.typ with _ | _ | _ | _ | _ <;> simp_all
    rw [abl c'] at h
    rcases ll2rgd_left h with q | q
    · exact Or.inl q
    · exact Or.inr (Or.inl q)

/-- Whatever the source grids, the longitude kept with the target grid stays the same meridian: it
changes by whole turns. -/
theorem C110_turns (gs : List Grille) (lat lon lon' : ℚ) (ps : List (ℚ × ℚ)) (h : calcxys gs lat lon = some (ps, lon')) :
    ps.length = gs.length ∧ ∃ k : ℤ, lon' = lon + 360 * k := by
  induction gs generalizing lon ps with
  | nil =>
    simp only [calcxys, Option.some.injEq, Prod.mk.injEq] at h
    exact ⟨by rw [← h.1]; rfl, 0, by rw [← h.2]; simp⟩
  | cons g gs ih =>
    simp only [calcxys, Option.bind_eq_bind] at h
    obtain ⟨⟨p, l⟩, e, h⟩ := Option.bind_eq_some_iff.1 h
    obtain ⟨⟨qs, m⟩, e2, h⟩ := Option.bind_eq_some_iff.1 h
    simp only [Option.some.injEq, Prod.mk.injEq] at h
    obtain ⟨h1, j, hj⟩ := ih l qs (by rw [e2, h.2])
    refine ⟨by rw [← h.1]; simp [h1], ?_⟩
    have : ∃ k : ℤ, l = lon + 360 * k := by
      rcases calcxy_left e with ⟨_, q⟩ | ⟨_, q⟩ | ⟨_, a, _, q⟩
      · obtain ⟨k1, e1⟩ := if_turns (lon < 0) lon
        obtain ⟨k2, e2⟩ := wrap_turns 0 (if lon < 0 then lon + 360 else lon)
        exact ⟨k1 + k2, by rw [q, e2, e1]; push_cast; ring⟩
      · obtain ⟨k1, e1⟩ := shiftL_turns (g.ig4 * (1 / 100)) (g.ig2 * (1 / 100)) g.ni lon
        obtain ⟨k2, e2⟩ := wrap_turns 0 (shiftL (g.ig4 * (1 / 100)) (g.ig2 * (1 / 100)) g.ni lon)
        exact ⟨k1 + k2, by rw [q, e2, e1]; push_cast; ring⟩
      · rw [q]; exact wrap_turns _ _
    obtain ⟨k, hk⟩ := this
    exact ⟨k + j, by rw [hj, hk]; push_cast; ring⟩

/-- The source grids that leave a longitude between 0 and 360 as it is: types A and B; L when the longitude
is not before the origin; Z and G when the first axis value is not negative, or the longitude at
most 180. -/
def Leaves (g : Grille) (lon : ℚ) : Prop :=
  match g.typ with
  | .A | .B => True
  | .L => (g.ig4 : ℚ) / 100 ≤ lon
  | .Z | .G => 0 ≤ g.ax.getD 0 0 ∨ lon ≤ 180

theorem calcxy_leaves {g : Grille} {lat lon l : ℚ} {p : ℚ × ℚ} (h : calcxy g lat lon = some (p, l)) (h0 : 0 ≤ lon)
    (h1 : lon < 360) (hl : Leaves g lon) : l = lon := by
  have w0 : ∀ m : ℚ, wrap 0 m = if m < 0 then m + 360 else m := by
    intro m; rw [wrap, if_neg (by norm_num : ¬ (0 : ℚ) = -180)]
  rcases calcxy_left h with ⟨_, q⟩ | ⟨ht, q⟩ | ⟨ht, a, ea, q⟩
  · rw [q, w0, if_neg (not_lt.2 h0), if_neg (not_lt.2 h0)]
  · simp only [Leaves, ht] at hl
    have hs : shiftL (g.ig4 * (1 / 100)) (g.ig2 * (1 / 100)) g.ni lon = lon ∨
        shiftL (g.ig4 * (1 / 100)) (g.ig2 * (1 / 100)) g.ni lon = lon - 360 := by
      simp only [shiftL, if_neg (by linarith : ¬ lon < (g.ig4 : ℚ) * (1 / 100))]
      split_ifs <;> simp
    rcases hs with e | e <;> rw [q, w0, e]
    · rw [if_neg (not_lt.2 h0)]
    · rw [if_pos (by linarith)]; ring
  · have hl : 0 ≤ g.ax.getD 0 0 ∨ lon ≤ 180 := by
      rcases ht with ht | ht <;> simpa only [Leaves, ht] using hl
    have ea' : g.ax.getD 0 0 = a := by
      have : get g.ax ((0 : ℕ) : ℤ) = some a := by simpa using ea
      rw [get_nat] at this
      simp [List.getD, this]
    rw [ea'] at hl
    rw [q]
    rcases hl with q | q
    · rw [if_neg (not_lt.2 q), w0, if_neg (not_lt.2 h0)]
    · by_cases c : a < 0
      · rw [if_pos c, wrap, if_pos rfl, if_neg (not_lt.2 q)]
      · rw [if_neg c, w0, if_neg (not_lt.2 h0)]

/-- **C110**, for source grids that leave the longitude: the position in each of them is the one that
source alone would give, and the longitude kept with the target grid does not change.

Missing: other source grids (`C110_witness`, `C110_gdll_witness`). -/
theorem C110_partial (gs : List Grille) (lat lon lon' : ℚ) (ps : List (ℚ × ℚ)) (h0 : 0 ≤ lon) (h1 : lon < 360)
    (hl : ∀ g ∈ gs, Leaves g lon) (h : calcxys gs lat lon = some (ps, lon')) :
    lon' = lon ∧ ∀ (i : ℕ) (g : Grille), gs[i]? = some g → ∃ p, ps[i]? = some p ∧ calcxys [g] lat lon = some ([p], lon) := by
  induction gs generalizing ps with
  | nil =>
    simp only [calcxys, Option.some.injEq, Prod.mk.injEq] at h
    exact ⟨h.2.symm, by intro i g hg; simp at hg⟩
  | cons g gs ih =>
    simp only [calcxys, Option.bind_eq_bind] at h
    obtain ⟨⟨p, l⟩, e, h⟩ := Option.bind_eq_some_iff.1 h
    obtain ⟨⟨qs, m⟩, e2, h⟩ := Option.bind_eq_some_iff.1 h
    simp only [Option.some.injEq, Prod.mk.injEq] at h
    have hk := calcxy_leaves e h0 h1 (hl g (by simp))
    dsimp only at e2
    rw [hk] at e e2
    clear hk
    obtain ⟨i1, i2⟩ := ih qs (fun g hg => hl g (by simp [hg])) (by rw [e2, h.2])
    refine ⟨i1, ?_⟩
    intro i g' hg
    cases i with
    | zero =>
      simp only [List.getElem?_cons_zero, Option.some.injEq] at hg
      subst hg
      exact ⟨p, by rw [← h.1]; rfl, by simp [calcxys, e]⟩
    | succ i =>
      obtain ⟨p', a, b⟩ := i2 i g' (by simpa using hg)
      exact ⟨p', by rw [← h.1]; simpa using a, b⟩

/-- Source grids for the examples: L over a region from 10 to 30 degrees east with 360 degrees of columns, and A. -/
def srcL : Grille := ⟨.L, 360, 181, 100, 100, 0, 1000, [], [], ⟨0, 0, 1, 1⟩⟩
def srcA : Grille := ⟨.A, 360, 180, 0, 0, 0, 0, [], [], ⟨0, 0, 1, 1⟩⟩

example : Leaves srcA 5 ∧ Leaves (exZ 0) 5 ∧ Leaves srcL 20 ∧
    calcxys [srcA, exZ 0, srcL] 0 20 = some ([(21, 181 / 2), (22 / 9 + 1 / 9, 4 / 3), (11, 91)], 20) := by
  refine ⟨by simp [Leaves, srcA], by simp [Leaves, exZ]; norm_num, by simp [Leaves, srcL]; norm_num, by decide +kernel⟩

/-- A target point at 5 degrees east.  From the A grid alone it is in column 6.  After an interpolation
from an L grid that starts at 10 degrees it is in column 366 of the 360 columns. -/
theorem C110_witness : calcxys [srcA] 0 5 = some ([(6, 181 / 2)], 5) ∧
    calcxys [srcL, srcA] 0 5 = some ([(356, 91), (366, 181 / 2)], 365) := by decide +kernel

/-- After an interpolation from a grid whose axis starts west of Greenwich, the longitudes `gdll` gives for
the target grid beyond 180 degrees have become negative. -/
theorem C110_gdll_witness : calclatlon srcA 200 90 = some (1 / 2, 200) ∧ (calcxys [exZ 0] (1 / 2) 200).map (·.2) = some (-160) := by
  decide +kernel

end Verif.EzLocate
