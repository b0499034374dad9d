import Verif.FieldMath
import Mathlib.Tactic

namespace Verif.FieldMath

/-! # Squares of fields, map scale, Coriolis parameter: what is computed -/

theorem mem_upto (lo hi x : ℤ) : x ∈ upto lo hi ↔ lo ≤ x ∧ x ≤ hi := by
  simp only [upto, List.mem_map, List.mem_range]
  constructor
  · rintro ⟨k, hk, rfl⟩; omega
  · rintro ⟨h1, h2⟩; exact ⟨(x - lo).toNat, by omega, by omega⟩

theorem nodup_upto (lo hi : ℤ) : (upto lo hi).Nodup :=
  List.Nodup.map (fun x y h => by simpa using h) List.nodup_range

theorem offset_inj {ni i j i' j' : ℤ} (hi : 1 ≤ i ∧ i ≤ ni) (hi' : 1 ≤ i' ∧ i' ≤ ni)
    (h : (i - 1) + (j - 1) * ni = (i' - 1) + (j' - 1) * ni) : i = i' ∧ j = j' := by
  have e : (i - i') = (j' - j) * ni := by linarith
  have hj : j' - j = 0 := by
    by_contra hn
    rcases lt_or_gt_of_ne hn with h1 | h1
    · nlinarith
    · nlinarith
  rw [hj] at e
  omega

theorem nodup_rect (ni il ir jb jt : ℤ) (hl : 1 ≤ il) (hr : ir ≤ ni) :
    ((upto jb jt).flatMap fun j => (upto il ir).map fun i => (i - 1) + (j - 1) * ni).Nodup := by
  rw [List.nodup_flatMap]
  refine ⟨fun j _ => List.Nodup.map (fun x y h => by simpa using h) (nodup_upto _ _), ?_⟩
  refine (nodup_upto jb jt).imp ?_
  intro j j' hne
  simp only [Function.onFun, List.disjoint_left, List.mem_map, mem_upto]
  rintro x ⟨i, hi, rfl⟩ ⟨i', hi', he⟩
  exact hne (offset_inj ⟨by omega, by omega⟩ ⟨by omega, by omega⟩ he).2.symm

theorem nodup_offsets (ni nj nb : ℤ) (hb : 0 ≤ nb) : (offsets ni nj nb).Nodup := by
  unfold offsets
  by_cases h : nb = 0
  · subst h
    have e : upto 1 1 = [1] := by decide
    simp only [if_true, Int.zero_tdiv, Int.zero_tmod, add_zero, e]
    simp only [List.flatMap_cons, List.flatMap_nil, List.append_nil]
    exact List.Nodup.map (fun x y h => by simpa using h) (nodup_upto _ _)
  · simp only [h, if_false]
    have h1 : 0 ≤ nb.tdiv 1000 := Int.tdiv_nonneg hb (by omega)
    have h2 : 0 ≤ (nb.tmod 100).tdiv 10 := Int.tdiv_nonneg (Int.tmod_nonneg _ hb) (by omega)
    exact nodup_rect _ _ _ _ _ (by omega) (by omega)

theorem foldl_cell (cona conb : ℚ) (r a b lo hi : ℤ) (l : List ℤ) (hn : l.Nodup) (hl : ∀ o ∈ l, lo ≤ o ∧ o < hi)
    (ha : a = r ∨ a + hi ≤ r + lo ∨ r + hi ≤ a + lo) (hb : b = r ∨ b + hi ≤ r + lo ∨ r + hi ≤ b + lo) (m : ℤ → ℚ) (x : ℤ) :
    l.foldl (cell cona conb r a b) m x =
      if x - r ∈ l then cona * m (a + (x - r)) ^ 2 + conb * m (b + (x - r)) ^ 2 else m x := by
  induction l generalizing m with
  | nil => simp
  | cons o os ih =>
    rw [List.nodup_cons] at hn
    rw [List.foldl_cons, ih hn.2 fun p hp => hl p (by simp [hp])]
    have ho := hl o (by simp)
    by_cases hx : x - r ∈ os
    · have hne : x - r ≠ o := fun e => hn.1 (e ▸ hx)
      have hox := hl (x - r) (by simp [hx])
      rw [if_pos hx, if_pos (by simp [hx])]
      have keep : ∀ c, (c = r ∨ c + hi ≤ r + lo ∨ r + hi ≤ c + lo) → cell cona conb r a b m o (c + (x - r)) = m (c + (x - r)) := by
        intro c hc
        simp only [cell]
        rw [if_neg (by omega)]
      rw [keep a ha, keep b hb]
    · rw [if_neg hx]
      by_cases he : x - r = o
      · rw [if_pos (by simp [he])]
        have hxo : x = r + o := by omega
        simp only [cell, hxo, if_true]
        rw [show r + o - r = o by ring]
        split_ifs with hc
        · rw [hc.1, hc.2]; ring
        · rfl
      · rw [if_neg (by simp [he, hx])]
        simp only [cell]
        rw [if_neg (by omega)]

/-- Within the borders which the digits of `nb` tell, the sum of the squares; all else is kept.  The arrays may coincide or lie
apart. -/
theorem C150_squares (cona conb : ℚ) (r a b ni nj nb : ℤ) (m : ℤ → ℚ) (hni : 1 ≤ ni) (h0 : 0 ≤ nb) (h9 : nb ≤ 9999)
    (ha : a = r ∨ a + ni * nj ≤ r ∨ r + ni * nj ≤ a) (hb : b = r ∨ b + ni * nj ≤ r ∨ r + ni * nj ≤ b) (i j : ℤ)
    (hi : 1 ≤ i ∧ i ≤ ni) (hj : 1 ≤ j ∧ j ≤ nj) :
    sqadsq cona conb r a b ni nj nb m (r + ((i - 1) + (j - 1) * ni)) =
      if nb / 1000 < i ∧ i ≤ ni - nb / 10 % 10 ∧ nb / 100 % 10 < j ∧ j ≤ nj - nb % 10 then
        cona * m (a + ((i - 1) + (j - 1) * ni)) ^ 2 + conb * m (b + ((i - 1) + (j - 1) * ni)) ^ 2
      else m (r + ((i - 1) + (j - 1) * ni)) := by
  have e1 : nb.tdiv 1000 = nb / 1000 := Int.tdiv_eq_ediv_of_nonneg h0
  have e2 : (nb.tmod 1000).tdiv 100 = nb / 100 % 10 := by
    rw [Int.tmod_eq_emod_of_nonneg h0, Int.tdiv_eq_ediv_of_nonneg (by omega)]; omega
  have e3 : (nb.tmod 100).tdiv 10 = nb / 10 % 10 := by
    rw [Int.tmod_eq_emod_of_nonneg h0, Int.tdiv_eq_ediv_of_nonneg (by omega)]; omega
  have e4 : nb.tmod 10 = nb % 10 := Int.tmod_eq_emod_of_nonneg h0
  have hmem : ∀ o, o ∈ offsets ni nj nb → 0 ≤ o ∧ o < ni * nj := by
    intro o
    simp only [offsets, List.mem_flatMap, List.mem_map, mem_upto, e1, e2, e3, e4]
    rintro ⟨j, hj, i, hi, rfl⟩
    by_cases hz : nb = 0
    · subst hz
      simp at hi hj
      have : j = 1 := by omega
      subst this
      omega
    · simp only [hz, if_false] at hi hj
      have i1 : 1 ≤ i := by omega
      have i2 : i ≤ ni := by omega
      constructor <;> nlinarith [mul_nonneg (show (0 : ℤ) ≤ j - 1 by omega) (show (0 : ℤ) ≤ ni by omega),
        mul_nonneg (show (0 : ℤ) ≤ nj - j by omega) (show (0 : ℤ) ≤ ni by omega)]
  rw [sqadsq, foldl_cell cona conb r a b 0 (ni * nj) _ (nodup_offsets ni nj nb h0) hmem (by simpa using ha) (by simpa using hb)]
  rw [show r + ((i - 1) + (j - 1) * ni) - r = (i - 1) + (j - 1) * ni by ring]
  refine if_congr ?_ rfl rfl
  simp only [offsets, List.mem_flatMap, List.mem_map, mem_upto, e1, e2, e3, e4]
  by_cases hz : nb = 0
  · subst hz
    simp only [if_true]
    constructor
    · intro _; refine ⟨by omega, by omega, by omega, by omega⟩
    · intro _
      refine ⟨1, by omega, (i - 1) + (j - 1) * ni + 1, ⟨?_, ?_⟩, by ring⟩
      · nlinarith [mul_nonneg (show (0 : ℤ) ≤ j - 1 by omega) (show (0 : ℤ) ≤ ni by omega)]
      · nlinarith [mul_nonneg (show (0 : ℤ) ≤ nj - j by omega) (show (0 : ℤ) ≤ ni by omega)]
  · simp only [hz, if_false]
    constructor
    · rintro ⟨j', hj', i', hi', he⟩
      obtain ⟨rfl, rfl⟩ := offset_inj (ni := ni) ⟨by omega, by omega⟩ hi he
      omega
    · intro h
      exact ⟨j, by omega, i, by omega, rfl⟩

/-- Nothing outside of the array of results is changed. -/
theorem C150_squares_frame (cona conb : ℚ) (r a b ni nj nb : ℤ) (m : ℤ → ℚ) (hni : 1 ≤ ni) (h0 : 0 ≤ nb) (x : ℤ)
    (hx : x < r ∨ r + ni * nj ≤ x) : sqadsq cona conb r a b ni nj nb m x = m x := by
  have h1 : 0 ≤ nb.tdiv 1000 := Int.tdiv_nonneg h0 (by omega)
  have h2 : 0 ≤ (nb.tmod 100).tdiv 10 := Int.tdiv_nonneg (Int.tmod_nonneg _ h0) (by omega)
  have h3 : 0 ≤ (nb.tmod 1000).tdiv 100 := Int.tdiv_nonneg (Int.tmod_nonneg _ h0) (by omega)
  have h4 : 0 ≤ nb.tmod 10 := Int.tmod_nonneg _ h0
  have hmem : ∀ o, o ∈ offsets ni nj nb → x ≠ r + o := by
    intro o
    simp only [offsets, List.mem_flatMap, List.mem_map, mem_upto]
    rintro ⟨j, hj, i, hi, rfl⟩
    by_cases hz : nb = 0
    · subst hz
      simp at hi hj
      have : j = 1 := by omega
      subst this
      omega
    · simp only [hz, if_false] at hi hj
      have i1 : 1 ≤ i := by omega
      have i2 : i ≤ ni := by omega
      have a1 : 0 ≤ (i - 1) + (j - 1) * ni := by
        nlinarith [mul_nonneg (show (0 : ℤ) ≤ j - 1 by omega) (show (0 : ℤ) ≤ ni by omega)]
      have a2 : (i - 1) + (j - 1) * ni < ni * nj := by
        nlinarith [mul_nonneg (show (0 : ℤ) ≤ nj - j by omega) (show (0 : ℤ) ≤ ni by omega)]
      omega
  unfold sqadsq
  generalize offsets ni nj nb = l at hmem
  induction l generalizing m with
  | nil => rfl
  | cons o os ih =>
    rw [List.foldl_cons, ih _ fun p hp => hmem p (by simp [hp])]
    simp only [cell]
    rw [if_neg (hmem o (by simp))]

example : sqadsq 2 1 0 0 100 3 3 1111 (fun x => x) 4 = 2 * 4 ^ 2 + 104 ^ 2 ∧ sqadsq 2 1 0 0 100 3 3 1111 (fun x => x) 5 = 5 ∧
    sqadsq 1 1 0 0 0 3 3 0 (fun x => x) 8 = 128 := by decide +kernel

/-- The sine of the latitude of a grid point: on the polar stereographic map the distance to the pole is `re * cos φ / (1 + sin φ)`. -/
def sinLat (d60 pi pj : ℚ) (i j : ℤ) (s : ℚ) : Prop :=
  -1 < s ∧ s ≤ 1 ∧ ((i - pi) ^ 2 + (j - pj) ^ 2) * (1 + s) = re2 d60 * (1 - s)

theorem re2_pos {d60 : ℚ} (h : d60 ≠ 0) : 0 < re2 d60 := by
  unfold re2
  exact mul_self_pos.2 (div_ne_zero (by norm_num) h)

/-- The map scale is the one of a map true at 60 degrees, `(1 + sin 60) / (1 + sin φ)`. -/
theorem C150_map_scale (d60 pi pj s : ℚ) (i j : ℤ) (h : d60 ≠ 0) (hs : sinLat d60 pi pj i j s) :
    mscale d60 pi pj i j = (1866025 / 1000000) / (1 + s) := by
  obtain ⟨h1, h2, h3⟩ := hs
  have hp := re2_pos h
  have h1' : 1 + s ≠ 0 := by linarith
  have e : r2 pi pj i j = (i - pi) ^ 2 + (j - pj) ^ 2 := by simp only [r2]; ring
  simp only [mscale, e]
  generalize (i - pi) ^ 2 + (j - pj) ^ 2 = q at *
  generalize re2 d60 = p at *
  have hp' : p ≠ 0 := ne_of_gt hp
  rw [eq_div_iff h1']
  field_simp
  linarith

/-- The Coriolis parameter is the angular speed of the earth, doubled, by the sine of the latitude. -/
theorem C150_coriolis (d60 pi pj s : ℚ) (i j : ℤ) (h : d60 ≠ 0) (hs : sinLat d60 pi pj i j s) :
    coriol d60 pi pj i j = 1458 / 10000000 * s := by
  obtain ⟨h1, h2, h3⟩ := hs
  have hp := re2_pos h
  have e : r2 pi pj i j = (i - pi) ^ 2 + (j - pj) ^ 2 := by simp only [r2]; ring
  have hq : 0 ≤ (i - pi) ^ 2 + (j - pj) ^ 2 := by positivity
  simp only [coriol, e]
  generalize (i - pi) ^ 2 + (j - pj) ^ 2 = q at *
  generalize re2 d60 = p at *
  have hp' : p + q ≠ 0 := by linarith
  rw [div_eq_iff hp']
  have : p - q = s * (p + q) := by linarith
  rw [this]; ring

/-- Each point has a latitude. -/
theorem C150_latitude (d60 pi pj : ℚ) (i j : ℤ) (h : d60 ≠ 0) : ∃ s, sinLat d60 pi pj i j s := by
  have hp := re2_pos h
  have hq : 0 ≤ ((i : ℚ) - pi) ^ 2 + (j - pj) ^ 2 := by positivity
  unfold sinLat
  generalize ((i : ℚ) - pi) ^ 2 + (j - pj) ^ 2 = q at *
  generalize re2 d60 = p at *
  have hs : 0 < p + q := by linarith
  refine ⟨(p - q) / (p + q), ?_, ?_, ?_⟩
  · rw [lt_div_iff₀ hs]; linarith
  · rw [div_le_iff₀ hs]; linarith
  · field_simp; ring

example : mscale 381000 10 10 10 10 = 1866025 / 2000000 ∧ coriol 381000 10 10 10 10 = 1458 / 10000000 ∧ sinLat 381000 10 10 10 10 1 := by
  refine ⟨?_, ?_, ?_⟩ <;> norm_num [mscale, coriol, sinLat, r2, re2]

end Verif.FieldMath
