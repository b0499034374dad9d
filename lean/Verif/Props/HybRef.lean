import Verif.HybRef
import Mathlib.Tactic
import Mathlib.Analysis.Convex.SpecificFunctions.Basic

namespace Verif.HybRef

/-! # C169: hybrid levels and pressure -/

/-- Pressure on a normalized level. -/
theorem normalized {ptop pref : ℝ} (hp : 0 < pref) (ht : ptop < pref) (s r ps : ℝ) (hs : 0 ≤ s) :
    hybToPres 1 s ptop r pref ps = some (ptop + s * (pref - ptop) + s ^ r * (ps - pref)) := by
  have h1 : 0 < 1 - ptop / pref := by rw [sub_pos, div_lt_one hp]; exact ht
  have e : s + (1 - s) * ptop / pref - ptop / pref = s * (1 - ptop / pref) := by ring
  simp only [hybToPres, true_or, if_true]
  rw [e, max_eq_left (mul_nonneg hs h1.le), mul_one_div, mul_div_cancel_right₀ _ h1.ne']
  congr 1
  field_simp
  ring

/-- C169.  The level 1 is the surface, the level 0 (`ptop/pref` when not normalized) is the top, for every surface pressure; the two
kinds agree. -/
theorem C169_ends {ptop pref : ℝ} (hp : 0 < pref) (ht : ptop < pref) (r ps : ℝ) (hr : 0 < r) :
    hybToPres 1 1 ptop r pref ps = some ps ∧ hybToPres 5 1 ptop r pref ps = some ps ∧
    hybToPres 1 0 ptop r pref ps = some ptop ∧ hybToPres 5 (ptop / pref) ptop r pref ps = some ptop ∧
    (∀ s, hybToPres 5 (s + (1 - s) * ptop / pref) ptop r pref ps = hybToPres 1 s ptop r pref ps) ∧
    ∀ h, h ≤ ptop / pref → hybToPres 5 h ptop r pref ps = some (h * pref) := by
  have h1 : 0 < 1 - ptop / pref := by rw [sub_pos, div_lt_one hp]; exact ht
  refine ⟨?_, ?_, ?_, ?_, ?_, ?_⟩
  · rw [normalized hp ht _ _ _ zero_le_one, Real.one_rpow]; congr 1; ring
  · simp only [hybToPres, or_true, if_true]
    rw [if_neg (by norm_num), max_eq_left h1.le, mul_one_div, div_self h1.ne', Real.one_rpow]; congr 1; ring
  · rw [normalized hp ht _ _ _ le_rfl, Real.zero_rpow hr.ne']; congr 1; ring
  · simp only [hybToPres, or_true, if_true]
    rw [if_neg (by norm_num), sub_self, max_self, zero_mul, Real.zero_rpow hr.ne']; congr 1; field_simp; ring
  · intro s; simp [hybToPres]
  · intro h hh
    simp only [hybToPres, or_true, if_true]
    rw [if_neg (by norm_num), max_eq_right (by linarith), zero_mul, Real.zero_rpow hr.ne']; congr 1; ring

theorem pow_slope {x y r : ℝ} (hx : 0 ≤ x) (hxy : x < y) (hy : y ≤ 1) (hr : 1 ≤ r) : y ^ r - x ^ r ≤ r * (y - x) := by
  have y0 : 0 < y := lt_of_le_of_lt hx hxy
  have b := one_add_mul_self_le_rpow_one_add (s := x / y - 1) (by have := div_nonneg hx y0.le; linarith) hr
  rw [show 1 + (x / y - 1) = x / y by ring, Real.div_rpow hx y0.le] at b
  have yp : 0 < y ^ r := Real.rpow_pos_of_pos y0 r
  rw [le_div_iff₀ yp] at b
  have k : y ^ r ≤ y := by
    have := Real.rpow_le_rpow_of_exponent_ge y0 hy hr
    rwa [Real.rpow_one] at this
  have e : (1 + r * (x / y - 1)) * y ^ r = y ^ r - r * (y - x) * (y ^ r / y) := by field_simp; ring
  have q : y ^ r / y ≤ 1 := (div_le_one y0).2 k
  have : r * (y - x) * (y ^ r / y) ≤ r * (y - x) := mul_le_of_le_one_right (by nlinarith) q
  linarith

/-- C169.  Pressure increases with the level, unless the surface pressure is too far below the reference: the condition is that
`rcoef·(pref - ps) < pref - ptop`. -/
theorem C169_increasing {ptop pref r ps : ℝ} (hp : 0 < pref) (ht : ptop < pref) (hr : 1 ≤ r) (hc : r * (pref - ps) < pref - ptop)
    {s t : ℝ} (hs : 0 ≤ s) (hst : s < t) (h1 : t ≤ 1) :
    ∃ p q, hybToPres 1 s ptop r pref ps = some p ∧ hybToPres 1 t ptop r pref ps = some q ∧ p < q := by
  refine ⟨_, _, normalized hp ht s r ps hs, normalized hp ht t r ps (by linarith), ?_⟩
  have k := pow_slope hs hst h1 hr
  have m : s ^ r ≤ t ^ r := Real.rpow_le_rpow hs hst.le (by linarith)
  by_cases hq : pref ≤ ps
  · nlinarith [mul_nonneg (sub_nonneg.2 m) (sub_nonneg.2 hq), mul_pos (sub_pos.2 hst) (sub_pos.2 ht)]
  · have hq := not_le.1 hq
    have a : (t ^ r - s ^ r) * (pref - ps) ≤ r * (t - s) * (pref - ps) := mul_le_mul_of_nonneg_right k (by linarith)
    have b : (t - s) * (r * (pref - ps)) < (t - s) * (pref - ptop) := mul_lt_mul_of_pos_left hc (by linarith)
    nlinarith

/-- C169.  Without the condition it need not: at a surface pressure of 400 mb, with a reference of 800 mb and the coefficient 2, the
level 0.99 is below the ground. -/
theorem C169_increasing_witness : ∃ p, hybToPres 1 (99 / 100) 10 2 800 400 = some p ∧ 400 < p := by
  refine ⟨_, normalized (by norm_num) (by norm_num) _ _ _ (by norm_num), ?_⟩
  rw [show ((2 : ℝ)) = ((2 : ℕ) : ℝ) by norm_num, Real.rpow_natCast]; norm_num

/-- The condition is met for a surface at 500 mb. -/
example : (2 : ℝ) * (800 - 500) < 800 - 10 := by norm_num

/-- C169.  With the coefficient 1 hybrid levels are eta levels; eta levels with the top at 0 are sigma levels; the eta levels of the
other model are eta levels counted from their top. -/
theorem C169_agree {ptop pref : ℝ} (hp : 0 < pref) (ht : ptop < pref) (s ps : ℝ) (hs : 0 ≤ s) :
    hybToPres 1 s ptop 1 pref ps = some (etaToPres s ptop ps) ∧ etaToPres s 0 ps = sigmaToPres s ps ∧
    etasefToPres s ptop 0 ps = etaToPres s ptop ps ∧
    ∀ etatop, etatop < 1 → etasefToPres etatop ptop etatop ps = ptop ∧ etasefToPres 1 ptop etatop ps = ps ∧
      ∀ t, s < t → ptop < ps → etasefToPres s ptop etatop ps < etasefToPres t ptop etatop ps := by
  refine ⟨?_, ?_, ?_, ?_⟩
  · rw [normalized hp ht _ _ _ hs, Real.rpow_one, etaToPres]; congr 1; ring
  · simp [etaToPres, sigmaToPres]
  · simp [etasefToPres, etaToPres]
  · intro e he
    have h1 : 0 < 1 - e := by linarith
    refine ⟨by simp [etasefToPres], ?_, ?_⟩
    · simp only [etasefToPres]; field_simp; ring
    · intro t hst hps
      have key : ∀ u, etasefToPres u ptop e ps = ptop + (u - e) / (1 - e) * (ps - ptop) := by
        intro u; simp only [etasefToPres]; field_simp; ring
      rw [key, key]
      have : (s - e) / (1 - e) < (t - e) / (1 - e) := div_lt_div_of_pos_right (by linarith) h1
      nlinarith

/-- C169.  The older function agrees with the newer one if the first level is 0 and the top not, in the units of the surface
pressure. -/
theorem C169_older {ptop pref r ps ps1 s : ℝ} (h0 : 0 < ptop) (ht : ptop < pref) (hp : 400 ≤ pref ∧ pref ≤ 1050)
    (hr : 1 + 1 / 10 ^ 5 ≤ r ∧ r ≤ 2) (hs : 0 ≤ s ∧ s ≤ 1) :
    (ps1 < 40000 → hybridToPres s 0 ptop r pref ps ps1 = hybToPres 1 s ptop r pref ps) ∧
    (40000 ≤ ps1 → hybridToPres s 0 ptop r pref ps ps1 = (hybToPres 1 s ptop r pref (ps / 100)).map (100 * ·)) := by
  obtain ⟨p1, p2⟩ := hp
  obtain ⟨r1, r2⟩ := hr
  obtain ⟨s1, s2⟩ := hs
  have pp : 0 < pref := by linarith
  have h1 : 0 < 1 - ptop / pref := by rw [sub_pos, div_lt_one pp]; exact ht
  have rr : 1 < r := lt_of_lt_of_le (by norm_num) r1
  have na : ¬ |r - 1| < 1 / 10 ^ 5 := by rw [abs_of_pos (by linarith)]; linarith
  have e0 : (0 : ℝ) + (1 - 0) * ptop / pref = ptop / pref := by ring
  have e : (s + (1 - s) * ptop / pref - ptop / pref) * (1 / (1 - ptop / pref)) = s := by
    have : s + (1 - s) * ptop / pref - ptop / pref = s * (1 - ptop / pref) := by ring
    rw [this, mul_one_div, mul_div_assoc, div_self h1.ne', mul_one]
  have e2 : 100 * ptop / (ptop / pref) = 100 * pref := by field_simp
  refine ⟨fun hu => ?_, fun hu => ?_⟩
  · rw [normalized pp ht s r ps s1, hybridToPres, if_neg (by push Not; exact ⟨rr.le, r2⟩), if_neg (by push Not; exact ⟨p1, p2⟩),
      if_neg (by push Not; exact ⟨h0.le, by linarith⟩)]
    simp only [if_neg na, if_pos hu]
    rw [if_neg (by push Not; exact ⟨le_rfl, zero_le_one, s1, s2⟩), e0, e, e2]
    congr 1; field_simp; ring
  · rw [normalized pp ht s r (ps / 100) s1, hybridToPres, if_neg (by push Not; exact ⟨rr.le, r2⟩), if_neg (by push Not; exact ⟨p1, p2⟩),
      if_neg (by push Not; exact ⟨h0.le, by linarith⟩)]
    simp only [if_neg na, if_neg (not_lt.2 hu)]
    rw [if_neg (by push Not; exact ⟨le_rfl, zero_le_one, s1, s2⟩), e0, e, e2]
    simp only [Option.map_some]
    congr 1; field_simp; ring

/-- C169.  With another first level the older function gives another pressure: at the first level always `ptop`. -/
theorem C169_older_witness : hybridToPres (1 / 2) (1 / 2) 10 2 800 1000 1000 = some 10 ∧
    hybToPres 1 (1 / 2) 10 2 800 1000 = some 455 := by
  constructor
  · rw [hybridToPres, if_neg (by norm_num), if_neg (by norm_num), if_neg (by norm_num)]
    simp only [if_pos (show (1000 : ℝ) < 40000 by norm_num)]
    rw [if_neg (by norm_num), sub_self, zero_mul, if_neg (by norm_num), Real.zero_rpow (by norm_num)]
    norm_num
  · rw [normalized (by norm_num) (by norm_num) _ _ _ (by norm_num), show ((2 : ℝ)) = ((2 : ℕ) : ℝ) by norm_num, Real.rpow_natCast]
    norm_num

/-- C169.  In exact arithmetic, the reference values are read back as written up to the fraction of the pressure and the fourth
decimal of the coefficient, and what was read back is then kept exactly. -/
theorem C169_code (rcoef pref : ℚ) (h1 : 400 ≤ pref ∧ pref ≤ 1050) (h2 : 1 ≤ rcoef ∧ rcoef ≤ 2) :
    ∃ ig rc pr, hybrefToIg id rcoef pref = some ig ∧ igToHybref id ig = some (rc, pr) ∧ pr ≤ pref ∧ pref < pr + 1 ∧
      rc ≤ rcoef ∧ rcoef < rc + 1 / 1000 ∧ hybrefToIg id rc pr = some ig := by
  have a1 : (400 : ℤ) ≤ ⌊pref⌋ := Int.le_floor.2 (by exact_mod_cast h1.1)
  have a2 : ⌊pref⌋ ≤ 1050 := Int.floor_le_iff.2 (by push_cast; linarith [h1.2])
  have b1 : (1000 : ℤ) ≤ ⌊rcoef * 1000⌋ := Int.le_floor.2 (by push_cast; linarith [h2.1])
  have b2 : ⌊rcoef * 1000⌋ ≤ 2000 := Int.floor_le_iff.2 (by push_cast; linarith [h2.2])
  have f1 := Int.floor_le pref
  have f2 := Int.lt_floor_add_one pref
  have g1 := Int.floor_le (rcoef * 1000)
  have g2 := Int.lt_floor_add_one (rcoef * 1000)
  have a1' : (400 : ℚ) ≤ ⌊pref⌋ := by exact_mod_cast a1
  have a2' : (⌊pref⌋ : ℚ) ≤ 1050 := by exact_mod_cast a2
  have b1' : (1000 : ℚ) ≤ ⌊rcoef * 1000⌋ := by exact_mod_cast b1
  have b2' : (⌊rcoef * 1000⌋ : ℚ) ≤ 2000 := by exact_mod_cast b2
  refine ⟨(⌊pref⌋, ⌊rcoef * 1000⌋, 0, 0), ⌊rcoef * 1000⌋ / 1000, ⌊pref⌋, ?_, ?_, f1, f2, by linarith, by linarith, ?_⟩
  · rw [hybrefToIg, if_neg (by push Not; exact h1), if_neg (by push Not; exact h2)]; rfl
  · simp only [igToHybref, id]
    rw [if_neg (by push Not; exact ⟨a1', a2'⟩), if_neg (by push Not; constructor <;> linarith), if_neg (by simp), if_neg (by simp)]
  · rw [hybrefToIg, if_neg (by push Not; exact ⟨a1', a2'⟩), if_neg (by push Not; constructor <;> linarith), id,
      div_mul_cancel₀ _ (by norm_num), Int.floor_intCast, Int.floor_intCast]

/-- C169.  In single precision five coefficients are not kept when the values read are written again. -/
theorem C169_single_witness : ∀ n ∈ Finset.Icc (1000 : Int) 2000,
    ((igToHybref near24 (800, n, 0, 0)).bind fun v => hybrefToIg near24 v.1 v.2) =
      some (800, if n ∈ [(1004 : Int), 1009, 1012, 1017, 1022] then n - 1 else n, 0, 0) := by
  decide +kernel

/-- C169.  `hyb2pres` with one level and records of the size of the field: the pressure by the coordinate of the file, or the logarithm
of 100 times it. -/
theorem C169_file (f : File) (ni nj : Nat) (hyb p0 : Nat → ℝ) (h0 : f.p0 = some ((ni, nj, 1), p0)) (ht : f.pt = none) (log : Bool) (m : Nat)
    (hm : m < ni * nj) :
    (f.hy = none → (hyb2pres f (ni, nj, 1) 1 hyb log).2 m = some (if log then Real.log (100 * (hyb 0 * p0 m)) else hyb 0 * p0 m)) ∧
    (∀ d ptop pref rcoef, f.hy = some (d, ptop, pref, rcoef) → 0 < pref → ptop < pref → 0 ≤ hyb 0 →
      (hyb2pres f (ni, nj, 1) 1 hyb log).2 m =
        let p := ptop + hyb 0 * (pref - ptop) + hyb 0 ^ rcoef * (p0 m - pref)
        some (if log then Real.log (100 * p) else p)) := by
  have e1 : m / (ni * nj) = 0 := Nat.div_eq_of_lt hm
  have e2 : m % (ni * nj) = m := Nat.mod_eq_of_lt hm
  refine ⟨fun hy => ?_, fun d ptop pref rcoef hy hp hl hh => ?_⟩
  · cases log <;> simp [hyb2pres, h0, ht, hy, logOf, fill, hm, e1, e2, sigmaToPres]
  · cases log <;> simp [hyb2pres, h0, ht, hy, logOf, fill, hm, e1, e2, normalized hp hl _ _ _ hh]

/-- C169.  The same with a record of the top: eta levels, of the one model or the other. -/
theorem C169_eta (f : File) (ni nj : Nat) (hyb p0 : Nat → ℝ) (d0 : Dims) (h0 : f.p0 = some (d0, p0)) (ptop : ℝ)
    (ht : f.pt = some ((ni, nj, 1), ptop)) (log : Bool) (m : Nat) (hm : m < ni * nj) :
    (f.e1 = none → (hyb2pres f (ni, nj, 1) 1 hyb log).2 m =
      let p := ptop + hyb 0 * (p0 m - ptop)
      some (if log then Real.log (100 * p) else p)) ∧
    (∀ et, f.e1 = some ((ni, nj, 1), et) → (hyb2pres f (ni, nj, 1) 1 hyb log).2 m =
      let p := ptop + (hyb 0 - et) / (1 - et) * (p0 m - ptop)
      some (if log then Real.log (100 * p) else p)) := by
  have e1 : m / (ni * nj) = 0 := Nat.div_eq_of_lt hm
  have e2 : m % (ni * nj) = m := Nat.mod_eq_of_lt hm
  have k : ∀ h ps, etaToPres h ptop ps = ptop + h * (ps - ptop) := by intro h ps; simp only [etaToPres]; ring
  have k2 : ∀ h et ps, etasefToPres h ptop et ps = ptop + (h - et) / (1 - et) * (ps - ptop) := by
    intro h et ps; simp only [etasefToPres]; ring
  refine ⟨fun he => ?_, fun et he => ?_⟩
  · cases log <;> simp [hyb2pres, h0, ht, he, logOf, fill, hm, e1, e2, k]
  · cases log <;> simp [hyb2pres, h0, ht, he, logOf, fill, hm, e1, e2, k2]

/-- C169.  Not normalized levels, without logarithm. -/
theorem C169_kind5 (f : File) (ni nj : Nat) (hyb p0 : Nat → ℝ) (h0 : f.p0 = some ((ni, nj, 1), p0)) (hx : f.xx = none) (d : Dims)
    (ptop pref rcoef : ℝ) (hy : f.hy = some (d, ptop, pref, rcoef)) (m : Nat) (hm : m < ni * nj) :
    (hyb2pres f (ni, nj, 1) 5 hyb false).1 = 0 ∧
    (hyb2pres f (ni, nj, 1) 5 hyb false).2 m = hybToPres 5 (hyb 0) ptop rcoef pref (p0 m) := by
  have e1 : m / (ni * nj) = 0 := Nat.div_eq_of_lt hm
  have e2 : m % (ni * nj) = m := Nat.mod_eq_of_lt hm
  simp [hyb2pres, h0, hx, hy, fill, hm, e1, e2]

/-- C169.  Errors: another kind, no surface pressure, no reference values. -/
theorem C169_errors (f : File) (d : Dims) (kind : Int) (hyb : Nat → ℝ) (log : Bool)
    (h : (kind ≠ 1 ∧ kind ≠ 2 ∧ kind ≠ 5) ∨ (kind = 1 ∧ f.p0 = none) ∨ (kind = 5 ∧ f.xx = none ∧ (f.p0 = none ∨ f.hy = none))) :
    hyb2pres f d kind hyb log = (-1, fun _ => none) := by
  rcases h with h | ⟨rfl, h⟩ | ⟨rfl, hx, h⟩
  · simp only [hyb2pres]; rw [if_pos h]
  · simp [hyb2pres, h]
  · rcases hy : f.hy with _ | ⟨a, b, c, e⟩
    · simp [hyb2pres, hx, hy]
    · have h : f.p0 = none := by rcases h with h | h
                                 · exact h
                                 · rw [hy] at h; cases h
      simp [hyb2pres, hx, hy, h]

/-- C169.  `hyb2pres` uses its arguments for the dimensions of the field in its calls of `fstinf`.  With a surface pressure of one level
only the first level of the output is written, though success is returned. -/
theorem C169_levels_witness (f : File) (ni nj nk : Nat) (hyb p0 : Nat → ℝ) (h0 : f.p0 = some ((ni, nj, 1), p0)) (ht : f.pt = none) (log : Bool) :
    (hyb2pres f (ni, nj, nk) 1 hyb log).1 = 0 ∧ ∀ m, ni * nj ≤ m → (hyb2pres f (ni, nj, nk) 1 hyb log).2 m = none := by
  refine ⟨?_, fun m hm => ?_⟩
  · rcases hf : f.hy with _ | ⟨d, a, b, c⟩ <;> simp [hyb2pres, h0, ht, hf]
  · rcases hf : f.hy with _ | ⟨d, a, b, c⟩ <;> cases log <;> simp [hyb2pres, h0, ht, hf, logOf, fill, Nat.not_lt.2 hm]

/-- C169.  With a record of the top of one point only the first point is written. -/
theorem C169_points_witness (f : File) (d : Dims) (hyb p0 : Nat → ℝ) (d0 : Dims) (ptop : ℝ) (h0 : f.p0 = some (d0, p0))
    (ht : f.pt = some ((1, 1, 1), ptop)) (he : f.e1 = none) :
    (hyb2pres f d 1 hyb false).1 = 0 ∧ (hyb2pres f d 1 hyb false).2 0 = some (etaToPres (hyb 0) ptop (p0 0)) ∧
    ∀ m, 1 ≤ m → (hyb2pres f d 1 hyb false).2 m = none := by
  refine ⟨by simp [hyb2pres, h0, ht, he], by simp [hyb2pres, h0, ht, he, logOf, fill], fun m hm => ?_⟩
  simp [hyb2pres, h0, ht, he, logOf, fill, show m ≠ 0 by omega]

/-- C169.  Pressure levels are given in pascals whatever is asked for, not in millibars nor as the logarithm. -/
theorem C169_units_witness (f : File) (d : Dims) (hyb : Nat → ℝ) (log : Bool) (hf : f.hy = none ∧ f.pt = none ∧ f.e1 = none)
    (m : Nat) (hm : m < d.1 * d.2.1 * d.2.2) :
    (hyb2pres f d 2 hyb log).2 m = some (hyb (m / (d.1 * d.2.1)) * 100) := by
  obtain ⟨h1, h2, h3⟩ := hf
  simp [hyb2pres, h1, h2, h3, found, fill, hm]

/-- C169.  For levels which are not normalized the logarithm is not taken, and with a record `!!` nothing is written though success is
returned. -/
theorem C169_staggered_witness (f : File) (d : Dims) (hyb : Nat → ℝ) :
    hyb2pres f d 5 hyb true = hyb2pres f d 5 hyb false ∧
    (f.xx ≠ none → hyb2pres f d 5 hyb true = (0, fun _ => none)) := by
  refine ⟨by simp [hyb2pres], fun h => ?_⟩
  rcases hx : f.xx with _ | x
  · exact absurd hx h
  · simp [hyb2pres, hx]

/-- A file with a surface pressure, and one with a top. -/
example : ∃ f : File, f.p0 = some ((2, 2, 1), fun _ => 1000) ∧ f.pt = none ∧ f.hy = some ((1, 1, 1), 10, 800, 8 / 5) :=
  ⟨⟨some ((1, 1, 1), 10, 800, 8 / 5), none, none, some ((2, 2, 1), fun _ => 1000), none⟩, rfl, rfl, rfl⟩


/-- C169.  Which values are accepted. -/
theorem C169_accept (ig : Int × Int × Int × Int) (rcoef pref : ℚ) (hyb hyb1 ptop r pr ps ps1 : ℝ) (kind : Int) :
    ((igToHybref id ig).isSome ↔ (400 ≤ ig.1 ∧ ig.1 ≤ 1050) ∧ (1000 ≤ ig.2.1 ∧ ig.2.1 ≤ 2000) ∧ ig.2.2.1 = 0 ∧ ig.2.2.2 = 0) ∧
    ((hybrefToIg id rcoef pref).isSome ↔ (400 ≤ pref ∧ pref ≤ 1050) ∧ 1 ≤ rcoef ∧ rcoef ≤ 2) ∧
    ((hybridToPres hyb hyb1 ptop r pr ps ps1).isSome ↔ (1 ≤ r ∧ r ≤ 2) ∧ (400 ≤ pr ∧ pr ≤ 1050) ∧ (0 ≤ ptop ∧ ptop ≤ 1200) ∧
      (0 ≤ hyb1 ∧ hyb1 ≤ 1) ∧ 0 ≤ hyb ∧ hyb ≤ 1) ∧
    ((hybToPres kind hyb ptop r pr ps).isSome ↔ kind = 1 ∨ kind = 5) := by
  refine ⟨?_, ?_, ?_, ?_⟩
  · obtain ⟨a, b, c, d⟩ := ig
    have e1 : ((a : ℚ) < 400 ∨ (a : ℚ) > 1050) ↔ ¬ (400 ≤ a ∧ a ≤ 1050) := by
      rw [not_and_or, not_le, not_le]; exact or_congr (by norm_cast) (by norm_cast)
    have e2 : ((b : ℚ) / 1000 < 1 ∨ (b : ℚ) / 1000 > 2) ↔ ¬ (1000 ≤ b ∧ b ≤ 2000) := by
      rw [not_and_or, not_le, not_le, gt_iff_lt, div_lt_iff₀ (by norm_num), lt_div_iff₀ (by norm_num)]
      exact or_congr (by norm_num; norm_cast) (by norm_num; norm_cast)
    simp only [igToHybref, id, e1, e2]
    split_ifs <;> simp_all
  · have e1 : (pref < 400 ∨ pref > 1050) ↔ ¬ (400 ≤ pref ∧ pref ≤ 1050) := by rw [not_and_or, not_le, not_le]
    have e2 : (rcoef < 1 ∨ rcoef > 2) ↔ ¬ (1 ≤ rcoef ∧ rcoef ≤ 2) := by rw [not_and_or, not_le, not_le]
    simp only [hybrefToIg, e1, e2]
    split_ifs <;> simp_all
  · have e1 : (pr < 400 ∨ pr > 1050) ↔ ¬ (400 ≤ pr ∧ pr ≤ 1050) := by rw [not_and_or, not_le, not_le]
    have e2 : (r < 1 ∨ r > 2) ↔ ¬ (1 ≤ r ∧ r ≤ 2) := by rw [not_and_or, not_le, not_le]
    have e3 : (ptop < 0 ∨ ptop > 1200) ↔ ¬ (0 ≤ ptop ∧ ptop ≤ 1200) := by rw [not_and_or, not_le, not_le]
    have e4 : (hyb1 < 0 ∨ hyb1 > 1 ∨ hyb < 0 ∨ hyb > 1) ↔ ¬ ((0 ≤ hyb1 ∧ hyb1 ≤ 1) ∧ 0 ≤ hyb ∧ hyb ≤ 1) := by
      simp only [not_and_or, not_le, gt_iff_lt, or_assoc]
    simp only [hybridToPres, e1, e2, e3, e4]
    by_cases c1 : 1 ≤ r ∧ r ≤ 2 <;> by_cases c2 : 400 ≤ pr ∧ pr ≤ 1050 <;> by_cases c3 : 0 ≤ ptop ∧ ptop ≤ 1200 <;>
      by_cases c4 : (0 ≤ hyb1 ∧ hyb1 ≤ 1) ∧ 0 ≤ hyb ∧ hyb ≤ 1 <;> simp [c1, c2, c3, c4]
  · simp only [hybToPres]
    split_ifs <;> simp_all

/-- C169.  For pressure levels as much is written as the last record found among `HY`, `PT` and `E1` is large. -/
theorem C169_size_witness (f : File) (d : Dims) (hyb : Nat → ℝ) (log : Bool) (m : Nat) :
    let e := (f.e1.map (·.1)).getD ((f.pt.map (·.1)).getD ((f.hy.map (·.1)).getD d))
    (hyb2pres f d 2 hyb log).2 m = if m < e.1 * e.2.1 * e.2.2 then some (hyb (m / (e.1 * e.2.1)) * 100) else none := by
  have k : found (found (found d f.hy) f.pt) f.e1 = (f.e1.map (·.1)).getD ((f.pt.map (·.1)).getD ((f.hy.map (·.1)).getD d)) := by
    rcases f.e1 with _ | ⟨a, b⟩ <;> rcases f.pt with _ | ⟨a', b'⟩ <;> rcases f.hy with _ | ⟨a'', b''⟩ <;> rfl
  simp [hyb2pres, fill, k]


end Verif.HybRef
