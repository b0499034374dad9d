import Verif.SurfExtrap
import Mathlib.Tactic
import Verif.Props.Interp1D
import Mathlib.Analysis.SpecialFunctions.Trigonometric.Basic

namespace Verif.SurfExtrap

open Verif.Interp1D

/-! # C171: extrapolation near the surface -/

/-- The lowest level and the one above it, and what the tests decide. -/
theorem below_spec {inc : Bool} {lev : List ℚ} {d : ℚ} {p : Int} (h : Placed inc lev d p) (down : Bool) :
    ∃ a low, get lev (surfIndex inc lev.length) = some a ∧ get lev (lowIndex inc lev.length) = some low ∧ a < low ∧
      (∀ x ∈ lev, x = a ∨ low ≤ x) ∧ below inc down lev p d = some (down && decide (d < low)) := by
  obtain ⟨x, y, hx, hy, _⟩ := h.pair
  have g1 := get_lt _ _ _ hx
  have g2 := get_lt _ _ _ hy
  cases h with
  | up hi hl hp =>
    subst hi
    obtain ⟨a, ha⟩ := get_some lev 1 (by omega) (by omega)
    obtain ⟨b, hb⟩ := get_some lev 2 (by omega) (by omega)
    refine ⟨a, b, by simpa [surfIndex] using ha, by simpa [lowIndex] using hb, pairwise_get _ lev hl 1 2 a b (by omega) ha hb, ?_, ?_⟩
    · intro z hz
      obtain ⟨k, hk⟩ := (mem_get _ _).mp hz
      have := get_lt _ _ _ hk
      rcases Int.lt_or_le k 2 with c | c
      · have : k = 1 := by omega
        subst this
        rw [ha] at hk; cases hk; exact Or.inl rfl
      · exact Or.inr (up_le lev hl 2 k b z c hb hk)
    · obtain ⟨x', y', hx', hy', q1, q2⟩ := hp
      by_cases c : p = 1
      · subst c
        cases down <;> simp [below, lowestPosn, lowIndex, hb]
      · have : ¬ d < b := by
          have q := q1.resolve_left c
          have := up_le lev hl 2 p b x' (by omega) hb hx'
          linarith
        cases down <;> simp [below, lowestPosn, c, this]
  | down hi hl hp =>
    subst hi
    obtain ⟨a, ha⟩ := get_some lev lev.length (by omega) (by omega)
    obtain ⟨b, hb⟩ := get_some lev (lev.length - 1) (by omega) (by omega)
    refine ⟨a, b, by simpa [surfIndex] using ha, by simpa [lowIndex] using hb, pairwise_get _ lev hl _ _ b a (by omega) hb ha, ?_, ?_⟩
    · intro z hz
      obtain ⟨k, hk⟩ := (mem_get _ _).mp hz
      have := get_lt _ _ _ hk
      rcases Int.lt_or_le (lev.length - 1 : Int) k with c | c
      · have : k = lev.length := by omega
        subst this
        rw [ha] at hk; cases hk; exact Or.inl rfl
      · exact Or.inr (down_le lev hl k _ z b c hk hb)
    · obtain ⟨x', y', hx', hy', q1, q2⟩ := hp
      by_cases c : p = lev.length - 1
      · subst c
        cases down <;> simp [below, lowestPosn, lowIndex, hb]
      · have : ¬ d < b := by
          have q := q2.resolve_left (by omega)
          have := down_le lev hl (p + 1) _ y' b (by omega) hy' hb
          linarith
        cases down <;> simp [below, lowestPosn, c, this]

/-- C171.  With levels in one of the two orders and a position around the target, the state of the lowest level (the surface) plus the
flux is given to the targets below the second lowest level, if the switch is on, and to no others. -/
theorem C171_surface {inc : Bool} {lev : List ℚ} {d : ℚ} {p : Int} (h : Placed inc lev d p) (down : Bool) (st : List ℚ)
    (hs : st.length = lev.length) (ft f v : ℚ) : ∃ k : Int, ∃ a low s, get lev k = some a ∧ get st k = some s ∧ low ∈ lev ∧ a < low ∧
      (∀ x ∈ lev, x = a ∨ low ≤ x) ∧
      surface inc down lev st ft f p d v = some (if down = true ∧ d < low then s + ft * f else v) := by
  obtain ⟨a, low, ha, hb, hlt, hall, hbe⟩ := below_spec h down
  obtain ⟨s, hs'⟩ := get_some st (surfIndex inc lev.length) (get_lt _ _ _ ha).1 (by rw [hs]; exact (get_lt _ _ _ ha).2)
  refine ⟨_, a, low, s, ha, hs', (mem_get _ _).mpr ⟨_, hb⟩, hlt, hall, ?_⟩
  by_cases c : d < low <;> cases down <;> simp [surface, hbe, hs', c]

/-- C171.  The wind there has the speed `nss·f` and the direction at the top of the layer turned in proportion to the distance below it
and to the sine of the latitude. -/
theorem C171_wind {inc : Bool} {lev : List ℚ} {d : ℚ} {p : Int} (h : Placed inc lev d p) (down : Bool)
    (hBound nss f angleTop angleMax lat : ℝ) (v : ℝ × ℝ) : ∃ a low, a ∈ lev ∧ low ∈ lev ∧ a < low ∧ (∀ x ∈ lev, x = a ∨ low ≤ x) ∧
      ∃ w, surfaceWind inc down lev hBound nss f angleTop angleMax lat p d v = some w ∧
        (down = true → d < low → (⟨w.1, w.2⟩ : ℂ) =
          (nss * f : ℝ) * Complex.exp (((angleTop + angleMax * Real.sin lat * (((low : ℝ) - d) / hBound) : ℝ) : ℂ) * Complex.I)) ∧
        ((down = false ∨ low ≤ d) → w = v) := by
  obtain ⟨a, low, ha, hb, hlt, hall, hbe⟩ := below_spec h down
  refine ⟨a, low, (mem_get _ _).mpr ⟨_, ha⟩, (mem_get _ _).mpr ⟨_, hb⟩, hlt, hall, ?_⟩
  by_cases c : d < low
  · cases down with
    | false => exact ⟨v, by simp [surfaceWind, hbe, c], fun h => by simp at h, fun _ => rfl⟩
    | true =>
      refine ⟨_, by simp [surfaceWind, hbe, c, hb]; rfl, fun _ _ => ?_, fun h => ?_⟩
      · rw [show angleTop + angleMax * Real.sin lat * (((low : ℝ) - d) / hBound) = angleTop + ((low : ℝ) - d) / hBound * angleMax * Real.sin lat by ring]
        apply Complex.ext
        · rw [Complex.re_ofReal_mul, Complex.exp_ofReal_mul_I_re]
        · rw [Complex.im_ofReal_mul, Complex.exp_ofReal_mul_I_im]
      · rcases h with h | h
        · simp at h
        · exact absurd c (not_lt.2 h)
  · exact ⟨v, by cases down <;> simp [surfaceWind, hbe, c], fun _ h => absurd h c, fun _ => rfl⟩

/-- Levels in decreasing order, the target between the surface and the level above it. -/
example : Placed false [100, 10, 0] 4 2 :=
  Placed.down rfl (by unfold Down; decide) ⟨10, 0, rfl, rfl, Or.inr (by norm_num), Or.inl rfl⟩

example : surface false true [100, 10, 0] [7, 5, 3] 2 (1 / 2) 2 4 9 = some 4 := by
  decide +kernel


end Verif.SurfExtrap
