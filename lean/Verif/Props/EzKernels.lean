import Verif.Props.EzPoles
import Verif.Props.EzNewton

/-! # Which grids can be left, which kernel serves them, and the columns of the cubic corrections -/

namespace Verif.EzZones
open Verif.EzInterp

/-- **C112, which grids.**  Points are looked for outside polar stereographic and Lambert grids, local L
grids, and grids on axes (or on L grids, whose type goes on to this test) over polar stereographic or
over rotated or latitude-longitude coordinates that span less than 358 degrees. -/
theorem C112_grids (s : Src) :
    mayLeave s = true ↔ s.typ ∈ ['N', 'S', '!'] ∨ (s.typ = 'L' ∧ s.ext = 0) ∨
      (s.typ ∈ ['L', '#', 'Z', 'Y'] ∧
        (s.ref ∈ ['N', 'S'] ∨ (s.ref ∈ ['E', 'L'] ∧ s.ax s.ni - s.ax 1 < 358))) := by
  simp only [List.mem_cons, List.not_mem_nil, or_false]
  unfold mayLeave
  by_cases h1 : s.typ = 'N' ∨ s.typ = 'S' ∨ s.typ = '!'
  · simp [h1]
  by_cases h2 : s.typ = 'L' ∨ s.typ = '#' ∨ s.typ = 'Z' ∨ s.typ = 'Y'
  · by_cases h3 : s.ref = 'N' ∨ s.ref = 'S'
    · simp [h1, h2, h3]
    by_cases h4 : s.ref = 'E' ∨ s.ref = 'L'
    · by_cases h5 : s.ax s.ni - s.ax 1 < 358
      · simp only [h1, h2, h3, h4, h5, if_true, if_false, true_and, or_true]
      · simp only [h1, h2, h3, h4, h5, if_true, if_false, false_or, or_false,
          decide_eq_true_eq, and_false]
    · simp only [h1, h2, h3, h4, if_true, if_false, true_and, false_or, or_false, decide_eq_true_eq, false_and]
  · have h6 : s.typ ≠ 'L' := fun h => h2 (Or.inl h)
    simp [h1, h6]

/-- **C112, linear extrapolation.**  With increasing axes, linear interpolation on a grid on axes that
does not wrap is at every position, inside or outside, that of a regular grid of the same size. -/
theorem C112_linear (s t : Src) (zin : ℤ → ℤ → ℚ) (x y : ℚ) (hs : s.typ = '#' ∨ s.typ = 'Z' ∨ s.typ = 'G')
    (ht : t.typ ∉ ['#', 'Z', 'G', 'Y']) (he : s.ext = 0) (he' : t.ext = 0) (hni : 2 ≤ s.ni)
    (hnj : 2 ≤ s.nj) (h1 : t.j1 = 1) (h2 : t.j2 = s.nj) (h3 : t.ni = s.ni)
    (hax : ∀ k, 1 ≤ k → k < s.ni → s.ax k < s.ax (k + 1))
    (hay : ∀ l, 1 ≤ l → l < s.nj → s.ay l < s.ay (l + 1)) :
    gdinterp s 1 zin x y = gdinterp t 1 zin x y := by
  have hY : s.typ ≠ 'Y' := by rintro h; rw [h] at hs; revert hs; decide
  simp only [List.mem_cons, List.not_mem_nil, or_false, not_or] at ht
  have ht' : ¬ (t.typ = '#' ∨ t.typ = 'Z' ∨ t.typ = 'G') := by tauto
  simp only [gdinterp, if_neg hY, if_neg ht.2.2.2, if_pos hs, if_neg ht', he, he', if_true,
    if_neg (show ¬ ((1 : ℤ) = 0) by decide), if_neg (show ¬ ((0 : ℤ) = 2) by decide), h1, h2, h3]
  exact C78_bilinear _ _ _ _ _ _ _ hni hnj hax hay

/-- **C113, columns of the cubic corrections on axes.**  Column `k` of the axis continued around the
globe is column `k + p` less 360 degrees before the first and column `k - p` more 360 degrees after the
last, with the period `p` = `ni - 1` where the last column repeats the first and `ni` where it does not.
The four columns and longitudes used beside column `i` are those numbered `i - 1` to `i + 2`, except in
the last cell of grids with a repeated column. -/
theorem C113_columns_partial (ni wrap i : ℤ) (ax : ℤ → ℚ) (hni : 4 ≤ ni)
    (hw : wrap = 2 ∨ (wrap = 1 ∧ i ≠ ni - 1)) (h1 : 1 ≤ i) (h2 : i ≤ ni - 2 + wrap) :
    let p := if wrap = 1 then ni - 1 else ni
    let col : ℤ → ℤ := fun k => if k < 1 then k + p else if ni < k then k - p else k
    let lon : ℤ → ℚ := fun k => if k < 1 then ax (col k) - 360 else if ni < k then ax (col k) + 360 else ax k
    cols3iwnnc ni wrap ax i = some ((col (i - 1), col (i + 1), col (i + 2)),
      (lon (i - 1), lon i, lon (i + 1), lon (i + 2))) := by
  intro p col lon
  have hr : ∀ k, 1 ≤ k → k ≤ ni → rd1 1 ni ax k = some (ax k) := fun k a b => rd1_some a b
  have hlo : ∀ k, k < 1 → col k = k + p ∧ lon k = ax (k + p) - 360 := fun k h => by
    have : col k = k + p := if_pos h
    exact ⟨this, by rw [← this]; exact if_pos h⟩
  have hmid : ∀ k, 1 ≤ k → k ≤ ni → col k = k ∧ lon k = ax k := fun k h h' =>
    ⟨by simp only [col, if_neg (not_lt.2 h), if_neg (not_lt.2 h')],
      by simp only [lon, if_neg (not_lt.2 h), if_neg (not_lt.2 h')]⟩
  have hhi : ∀ k, ni < k → col k = k - p ∧ lon k = ax (k - p) + 360 := fun k h => by
    have hk : ¬ k < 1 := by omega
    have : col k = k - p := by simp only [col, if_neg hk, if_pos h]
    exact ⟨this, by rw [← this]; simp only [lon, if_neg hk, if_pos h]⟩
  have m := hmid i (by omega) (by omega)
  clear_value col lon
  rw [m.2]
  unfold cols3iwnnc
  by_cases c1 : i = 1
  · subst c1
    rw [(hlo (1 - 1) (by omega)).1, (hlo (1 - 1) (by omega)).2, (hmid (1 + 1) (by omega) (by omega)).1,
      (hmid (1 + 1) (by omega) (by omega)).2, (hmid (1 + 2) (by omega) (by omega)).1,
      (hmid (1 + 2) (by omega) (by omega)).2]
    rcases hw with rfl | ⟨rfl, hi⟩
    · rw [show (1 : ℤ) - 1 + p = ni by simp [p]]
      rw [if_neg (by omega), if_neg (by omega), if_neg (by omega), if_neg (by omega), if_pos (by omega),
        hr ni (by omega) le_rfl, hr 1 (by omega) (by omega), hr 2 (by omega) (by omega), hr 3 (by omega) (by omega)]
      rfl
    · rw [show (1 : ℤ) - 1 + p = ni - 1 by simp [p]]
      rw [if_neg (by omega), if_pos (by omega), hr (ni - 1) (by omega) (by omega), hr 1 (by omega) (by omega),
        hr 2 (by omega) (by omega), hr 3 (by omega) (by omega)]
      rfl
  rw [(hmid (i - 1) (by omega) (by omega)).1, (hmid (i - 1) (by omega) (by omega)).2]
  by_cases c2 : i + 2 ≤ ni
  · rw [(hmid (i + 1) (by omega) (by omega)).1, (hmid (i + 1) (by omega) (by omega)).2,
      (hmid (i + 2) (by omega) (by omega)).1, (hmid (i + 2) (by omega) (by omega)).2]
    rw [if_neg (by omega), if_neg (by omega), if_neg (by omega), if_neg (by omega), if_neg (by omega),
      hr (i - 1) (by omega) (by omega), hr i (by omega) (by omega), hr (i + 1) (by omega) (by omega),
      hr (i + 2) (by omega) (by omega)]
    rfl
  have hw2 : wrap = 2 := by omega
  subst hw2
  have hp : p = ni := by simp [p]
  rw [hp] at hhi
  by_cases c3 : i = ni
  · subst c3
    rw [(hhi (i + 1) (by omega)).1, (hhi (i + 1) (by omega)).2, (hhi (i + 2) (by omega)).1,
      (hhi (i + 2) (by omega)).2, if_neg (by omega), if_neg (by omega), if_pos (by omega),
      hr (i - 1) (by omega) (by omega), hr i (by omega) (by omega), hr 1 (by omega) (by omega),
      hr 2 (by omega) (by omega), show i + 1 - i = 1 by omega, show i + 2 - i = 2 by omega]
    rfl
  · have c4 : ni = i + 1 := by omega
    subst c4
    rw [(hmid (i + 1) (by omega) (by omega)).1, (hmid (i + 1) (by omega) (by omega)).2,
      (hhi (i + 2) (by omega)).1, (hhi (i + 2) (by omega)).2, if_neg (by omega), if_neg (by omega),
      if_neg (by omega), if_pos (by omega), show i + 1 - 2 = i - 1 by omega, show i + 1 - 1 = i by omega,
      hr (i - 1) (by omega) (by omega), hr i (by omega) (by omega), hr (i + 1) (by omega) (by omega),
      hr 1 (by omega) (by omega), show i + 2 - (i + 1) = 1 by omega]
    rfl

example : cols3iwnnc 4 2 (fun k => 90 * (k - 1)) 4 =
    some ((3, 1, 2), (180, 270, 360, 450)) := by decide +kernel

example : (let s : Src := { typ := 'L', ref := ' ', ni := 4, nj := 3, j1 := 1, j2 := 3, ext := 0, ypn := 9, yps := -9 }
    mayLeave s = true ∧ mayLeave { s with ext := 2 } = false ∧
    mayLeave { s with typ := 'Z', ref := 'E', ax := fun k => 119 * k } = true ∧
    mayLeave { s with typ := 'Z', ref := 'E', ax := fun k => 120 * k } = false) := by decide +kernel

example : (let s : Src := { typ := 'Z', ref := 'E', ni := 4, nj := 3, j1 := 1, j2 := 3, ext := 0, ax := fun i => 40 * i * i, aym := fun j => j * j * j, ypn := 9, yps := -9 }
    (∀ l, 1 ≤ l → l < s.nj → s.ay l < s.ay (l + 1)) ∧
    gdinterp s 1 (fun i j => 10 * i + j) (7 / 2) (1 / 4) = some (141 / 4)) := by
  refine ⟨fun l a b => ?_, by decide +kernel⟩
  have : l = 1 ∨ l = 2 := by dsimp only at b; omega
  rcases this with rfl | rfl <;> norm_num [Src.ay]

/-! ### Corrections near the poles, away from the columns and rows -/

theorem row4_all {ni j1 j2 : ℤ} {z : ℤ → ℤ → ℚ} {im i ip ipp j : ℤ} {r : ℚ × ℚ × ℚ × ℚ}
    (h : row4 ni j1 j2 z im i ip ipp j = some r) : r = (z im j, z i j, z ip j, z ipp j) := by
  have k : ∀ {a b : ℤ} {w : ℚ}, rd ni j1 j2 z a b = some w → w = z a b := by
    intro a b w hb
    simp only [rd] at hb
    split_ifs at hb
    simpa using hb.symm
  simp only [row4, Option.bind_eq_bind, Option.bind_eq_some_iff] at h
  obtain ⟨a, ha, b, hb, c, hc, d, hd, e⟩ := h
  simp only [Option.pure_def, Option.some.injEq] at e
  rw [← e, k ha, k hb, k hc, k hd]

theorem newton_const (cx : Inv) (v x x1 x2 x3 : ℚ) : newton cx v v v v x x1 x2 x3 = v := by
  simp [newton]

/-- The irregular cubic correction of rows that are constant and follow a cubic in the latitude. -/
theorem irgdint3wnnc_zonal (ni a wrap : ℤ) (ax ay : ℤ → ℚ) (z : ℤ → ℤ → ℚ) (c : Fin 4 → ℚ) (px py v : ℚ)
    (hz : ∀ i j, a ≤ j → j ≤ a + 3 → z i j = pol c (ay j)) (h1 : ay a < ay (a + 1))
    (h2 : ay (a + 1) < ay (a + 2)) (h3 : ay (a + 2) < ay (a + 3))
    (h : irgdint3wnnc ni a (a + 3) wrap ax ay z px py = some v) :
    v = pol c (ay (a + 1) + (ay (a + 2) - ay (a + 1)) * (py - (a + 1))) := by
  have hj : min (a + 3 - 2) (max (a + 1) (ifix py)) = a + 1 := by omega
  simp only [irgdint3wnnc, hj, Option.bind_eq_bind, Option.bind_eq_some_iff] at h
  obtain ⟨⟨cc, x⟩, -, y4, hy4, h⟩ := h
  simp only at h
  split_ifs at h
  simp only [binewton, Option.bind_eq_bind, Option.bind_eq_some_iff] at h
  obtain ⟨y1, g1, y2, g2, y3, g3, r1, q1, r2, q2, r3, q3, r4, q4, h⟩ := h
  have k : ∀ {b : ℤ} {w : ℚ}, rd1 a (a + 3) ay b = some w → w = ay b := by
    intro b w hb
    simp only [rd1] at hb
    split_ifs at hb
    simpa using hb.symm
  rw [k g1, k g2, k g3, k hy4, row4_all q1, row4_all q2, row4_all q3, row4_all q4] at h
  simp only [show a + 1 - 1 = a by omega, show a + 1 + 1 = a + 2 by omega, show a + 1 + 2 = a + 3 by omega,
    hz _ a le_rfl (by omega), hz _ (a + 1) (by omega) (by omega), hz _ (a + 2) (by omega) (by omega),
    hz _ (a + 3) (by omega) le_rfl, newton_const, newton_pol c _ _ _ _ _ h1 h2 h3, Option.pure_def,
    Option.some.injEq] at h
  rw [← h]; push_cast; rfl

theorem poleval_const (s : Src) (z : ℤ → ℚ) (v : ℚ) (hni : 2 ≤ s.ni) (hz : ∀ i, z i = v)
    (hx : ∀ i, 1 ≤ i → i < s.ni → s.ax i < s.ax (i + 1)) : poleval s z = some v := by
  by_cases ht : s.typ = 'Z' ∧ s.ref = 'E'
  · obtain ⟨p, hp, hb⟩ := C113_weighted s z hni ht hx
    obtain ⟨a, b⟩ := hb v v fun i _ _ => by rw [hz]; exact ⟨le_rfl, le_rfl⟩
    rw [hp, le_antisymm b a]
  · obtain ⟨p, hp, -, hb⟩ := C113_mean s z (by omega) ht
    obtain ⟨a, b⟩ := hb v v fun i _ _ => by rw [hz]; exact ⟨le_rfl, le_rfl⟩
    rw [hp, le_antisymm b a]

/-- **C113** (cubic between rows, north).  On Z and G grids numbered from row 1 without the pole, the
correction reproduces every field that is a cubic in the latitude and has at the pole the value it has
in the last row, at the latitude taken linearly between the last two rows. -/
theorem C113_zonal_north (s : Src) (o : Opt) (c : Fin 4 → ℚ) (x y v : ℚ) (ho : o.interp = 3)
    (ht : s.typ = 'Z' ∨ s.typ = 'G') (hni : 2 ≤ s.ni) (h1 : s.j1 = 1) (h2 : 3 ≤ s.j2)
    (hx : ∀ i, 1 ≤ i → i < s.ni → s.ax i < s.ax (i + 1)) (ha : s.ay (s.j2 - 2) < s.ay (s.j2 - 1))
    (hb : s.ay (s.j2 - 1) < s.ay s.j2) (hc : s.ay s.j2 < 90) (hp : pol c 90 = pol c (s.ay s.j2))
    (h : aunord s o (fun _ j => pol c (s.ay j)) x y = some v) :
    v = pol c (s.ay (s.j2 - 1) + (s.ay s.j2 - s.ay (s.j2 - 1)) * (y - (s.j2 - 1))) := by
  have t1 : (s.typ = 'Z' ∨ s.typ = 'E' ∨ s.typ = 'G') := by tauto
  have e : ∀ k, s.ay k = s.aym (k - 1) := fun k => by rw [Src.ay, h1]
  have r : ∀ k, 0 ≤ k → k ≤ s.j2 - 1 → ayAt s k = some (s.aym k) := fun k a b => by
    rw [ayAt, rd1_some a (by omega)]
  have hay : aynorth s = some (s.ay (s.j2 - 2), s.ay (s.j2 - 1), s.ay s.j2, 90) := by
    have hn : s.aym (s.j2 - 1) ≠ 90 := by rw [← e]; exact ne_of_lt hc
    simp only [aynorth, r (s.j2 - 1) (by omega) le_rfl, r (s.j2 - 2) (by omega) (by omega),
      r (s.j2 - 3) (by omega) (by omega), Option.bind_eq_bind, Option.bind_some, if_neg hn, e]
    rw [show s.j2 - 2 - 1 = s.j2 - 3 by ring, show s.j2 - 1 - 1 = s.j2 - 2 by ring]
    rfl
  have hpole : poleval s (fun _ => pol c (s.ay s.j2)) = some (pol c 90) := by
    rw [hp]; exact poleval_const s _ _ hni (fun _ => rfl) hx
  simp only [aunord, hpole, Option.bind_eq_bind, Option.bind_some, if_neg (show ¬ s.j2 - 2 < s.j1 by omega), ho,
    if_true, t1, hay] at h
  rw [show s.j2 + 1 = s.j2 - 2 + 3 by ring] at h
  generalize hA : s.j2 - 2 = A at *
  have f0 : four A (s.ay A, s.ay (s.j2 - 1), s.ay s.j2, 90) A = s.ay A := by simp [four]
  have f1 : four A (s.ay A, s.ay (s.j2 - 1), s.ay s.j2, 90) (A + 1) = s.ay (s.j2 - 1) := by simp [four]
  have f2 : four A (s.ay A, s.ay (s.j2 - 1), s.ay s.j2, 90) (A + 2) = s.ay s.j2 := by simp [four]
  have f3 : four A (s.ay A, s.ay (s.j2 - 1), s.ay s.j2, 90) (A + 3) = 90 := by simp [four]
  have := irgdint3wnnc_zonal s.ni A s.ext s.ax _ _ c x y v ?_ (by rw [f0, f1]; exact ha)
    (by rw [f1, f2]; exact hb) (by rw [f2, f3]; exact hc) h
  · rw [this, f1, f2]
    have : (A : ℚ) + 1 = s.j2 - 1 := by
      have : A + 1 = s.j2 - 1 := by omega
      exact_mod_cast this
    rw [this]
  · intro i j ja jb
    have : j = A ∨ j = A + 1 ∨ j = A + 2 ∨ j = A + 3 := by omega
    rcases this with rfl | rfl | rfl | rfl
    · simp only [fillnpole, f0]; rw [if_neg (by omega)]; congr 2; omega
    · simp only [fillnpole, f1]; rw [if_neg (by omega)]; congr 2; omega
    · simp only [fillnpole, f2]; rw [if_neg (by omega)]; congr 2; omega
    · simp only [fillnpole, f3]; rw [if_pos (by omega)]

/-- **C113** (cubic between rows, south). -/
theorem C113_zonal_south (s : Src) (o : Opt) (c : Fin 4 → ℚ) (x y v : ℚ) (ho : o.interp = 3)
    (ht : s.typ = 'Z' ∨ s.typ = 'G') (hni : 2 ≤ s.ni) (h1 : s.j1 = 1) (h2 : 3 ≤ s.j2)
    (hx : ∀ i, 1 ≤ i → i < s.ni → s.ax i < s.ax (i + 1)) (ha : -90 < s.ay 1)
    (hb : s.ay 1 < s.ay 2) (hc : s.ay 2 < s.ay 3) (hp : pol c (-90) = pol c (s.ay 1))
    (h : ausud s o (fun _ j => pol c (s.ay j)) x y = some v) :
    v = pol c (s.ay 1 + (s.ay 2 - s.ay 1) * (y - 1)) := by
  have t1 : (s.typ = 'Z' ∨ s.typ = 'E' ∨ s.typ = 'G') := by tauto
  have e : ∀ k, s.ay k = s.aym (k - 1) := fun k => by rw [Src.ay, h1]
  have r : ∀ k, 0 ≤ k → k ≤ s.j2 - 1 → ayAt s k = some (s.aym k) := fun k a b => by
    rw [ayAt, rd1_some a (by omega)]
  have hay : aysouth s = some (-90, s.ay 1, s.ay 2, s.ay 3) := by
    have hn : s.aym 0 ≠ -90 := by
      have := e 1
      norm_num at this
      rw [← this]; exact ne_of_gt ha
    simp only [aysouth, h1, sub_self, r 0 le_rfl (by omega), r 1 (by omega) (by omega), r 2 (by omega) (by omega),
      Option.bind_eq_bind, Option.bind_some, if_neg hn, e]
    norm_num
  have hpole : poleval s (fun _ => pol c (s.ay 1)) = some (pol c (-90)) := by
    rw [hp]; exact poleval_const s _ _ hni (fun _ => rfl) hx
  simp only [ausud, h1, hpole, Option.bind_eq_bind, Option.bind_some,
    if_neg (show ¬ s.j2 < 1 + 2 by omega), ho, if_true, t1, hay] at h
  norm_num at h
  have := irgdint3wnnc_zonal s.ni 0 s.ext s.ax (four 0 (-90, s.ay 1, s.ay 2, s.ay 3)) _ c x y v ?_
    (by simpa [four] using ha) (by simpa [four] using hb) (by simpa [four] using hc) h
  · rw [this]; simp [four]
  · intro i j ja jb
    have : j = 0 ∨ j = 1 ∨ j = 2 ∨ j = 3 := by omega
    rcases this with rfl | rfl | rfl | rfl <;> simp [fillspole, four, h1]

/-- **C113** (nearest neighbour, south).  Up to half a row before the first row the correction is the plain
nearest neighbour; before that it is the value of the pole. -/
theorem C113_nearest_south (s : Src) (o : Opt) (zin : ℤ → ℤ → ℚ) (x y : ℚ) (ho : o.interp = 0)
    (ht : s.typ ≠ 'Y' ∧ ¬ (s.typ = 'Z' ∧ s.ref = 'E')) (hni : 1 ≤ s.ni) (hj : 3 ≤ s.j2)
    (h1 : s.j1 = 1) (hy : y < 2) :
    (1 / 2 ≤ y → ausud s o zin x y = gdinterp s 0 zin x y) ∧
    (y < 1 / 2 → ausud s o zin x y = poleval s (fun i => zin i 1)) := by
  obtain ⟨p, hp, -, -⟩ := C113_mean s (fun i => zin i 1) hni ht.2
  have main : ausud s o zin x y = rd s.ni 0 3 (fun i j => fillspole s zin p i (j - (1 - 2)))
      (min s.ni (max 1 (nint x))) (min 3 (max 0 (nint y))) := by
    simp only [ausud, h1, hp, Option.bind_eq_bind, Option.bind_some,
      if_neg (show ¬ s.j2 < 1 + 2 by omega), ho, if_true,
      if_neg (show ¬ ((0 : ℤ) = 3) by decide), if_neg (show ¬ ((0 : ℤ) = 1) by decide), rgdint0]
    norm_num
  have hg : gdinterp s 0 zin x y = rd s.ni 1 s.j2 zin (min s.ni (max 1 (nint x)))
      (min s.j2 (max 1 (nint y))) := by
    simp only [gdinterp, if_neg ht.1, if_true, rgdint0, h1]
  rw [hp]
  constructor
  · intro hge
    have : nint y = 1 ∨ nint y = 2 := by
      by_cases h : y < 3 / 2
      · exact Or.inl (nint_at _ 1 (by linarith) (by push_cast; linarith) (by push_cast; linarith))
      · exact Or.inr (nint_at _ 2 (by linarith) (by push_cast; linarith) (by push_cast; linarith))
    rw [main, hg]
    rcases this with e | e <;> rw [e]
    · rw [rd_some (by omega) (by omega) (by decide) (by decide), rd_some (by omega) (by omega) (by omega) (by omega),
        show min (3 : ℤ) (max 0 1) = 1 by decide, show min s.j2 (max 1 1) = 1 by omega]
      simp [fillspole, h1]
    · rw [rd_some (by omega) (by omega) (by decide) (by decide), rd_some (by omega) (by omega) (by omega) (by omega),
        show min (3 : ℤ) (max 0 2) = 2 by decide, show min s.j2 (max 1 2) = 2 by omega]
      simp [fillspole, h1]
  · intro hlt
    have e : nint y ≤ 0 := by
      unfold nint
      split_ifs with h0
      · have : ⌊y + 1 / 2⌋ < 1 := by rw [Int.floor_lt]; push_cast; linarith
        omega
      · rw [Int.ceil_le]; push_cast; linarith
    rw [main, show min 3 (max 0 (nint y)) = (0 : ℤ) by omega,
      rd_some (by omega) (by omega) (by decide) (by decide)]
    simp [fillspole]

example :
    let s : Src := { typ := 'G', ni := 4, nj := 4, j1 := 1, j2 := 4, ext := 2, ax := fun i => 90 * (i - 1), aym := fun k => 40 * k - 60, ypn := 9 / 2, yps := 1 / 2 }
    ausud s { interp := 0, extrap := 4 } (fun i j => i * j) 3 (3 / 4) = some 3 ∧
    ausud s { interp := 0, extrap := 4 } (fun i j => i * j) 3 (1 / 4) = some (5 / 2) ∧
    aunord s { interp := 3, extrap := 4 } (fun _ j => (s.ay j - 90) * (s.ay j - 60)) (5 / 2) (15 / 4) =
      some (40 * 10) ∧
    ausud s { interp := 3, extrap := 4 } (fun _ j => (s.ay j + 90) * (s.ay j + 60)) (5 / 2) (5 / 4) =
      some (40 * 10) := by decide +kernel

/-- C113.  With a row at the pole the northern zone pairs the latitudes of the last four rows with the values of the
last three and of the pole (ez_corrval_aunord.c:60-66): a field equal to the latitude is not given back. -/
theorem C113_pole_row_witness :
    let s : Src := { typ := 'Z', ni := 4, nj := 4, j1 := 1, j2 := 4, ext := 2, ax := fun i => 90 * (i - 1), aym := fun k => 30 * k, ypn := 4, yps := 1 }
    aunord s { interp := 3, extrap := 4 } (fun _ j => s.ay j) (5 / 2) (7 / 2) = some (615 / 8) := by decide +kernel

end Verif.EzZones
