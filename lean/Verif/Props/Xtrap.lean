import Verif.Xtrap
import Mathlib.Tactic
import Mathlib.Data.Rat.Floor

namespace Verif.Xtrap

/-! # C163: extrapolation -/

theorem ifix_lt_one {x : Rat} : ifix x < 1 ↔ x < 1 := by
  unfold ifix
  split
  · rw [Int.floor_lt]; simp
  · rename_i h
    have h : x < 0 := not_le.1 h
    refine ⟨fun _ => by linarith, fun _ => ?_⟩
    have : ⌈x⌉ ≤ 0 := Int.ceil_le.2 (by simpa using h.le)
    omega

theorem lt_ifix {x : Rat} {n : Nat} : ifix x > n ↔ (n : Rat) + 1 ≤ x := by
  unfold ifix
  split
  · rw [gt_iff_lt, Int.lt_iff_add_one_le, Int.le_floor]; push_cast; rfl
  · rename_i h
    have h : x < 0 := not_le.1 h
    have h1 : ⌈x⌉ ≤ 0 := Int.ceil_le.2 (by simpa using h.le)
    have h2 : (0 : Rat) ≤ n := Nat.cast_nonneg n
    constructor
    · intro g; omega
    · intro g; linarith

theorem nint_near (x : Rat) : |x - nint x| ≤ 1 / 2 := by
  unfold nint
  split
  · have a := Int.floor_le (x + 1 / 2)
    have b := Int.lt_floor_add_one (x + 1 / 2)
    rw [abs_le]; constructor <;> linarith
  · have a := Int.le_ceil (x - 1 / 2)
    have b := Int.ceil_lt_add_one (x - 1 / 2)
    rw [abs_le]; constructor <;> linarith

/-- The place taken is the nearest of `1 … n`. -/
theorem clamp_nearest (x : Rat) (n : Nat) (hn : 1 ≤ n) (k : Nat) (h1 : 1 ≤ k) (h2 : k ≤ n) :
    1 ≤ (min (n : Int) (max 1 (nint x))).toNat ∧ (min (n : Int) (max 1 (nint x))).toNat ≤ n ∧
    |x - ((min (n : Int) (max 1 (nint x))).toNat : Rat)| ≤ |x - k| := by
  generalize hm : (min (n : Int) (max 1 (nint x))) = m
  have m1 : 1 ≤ m := by omega
  have m2 : m ≤ n := by omega
  refine ⟨by omega, by omega, ?_⟩
  have hcast : ((m.toNat : Nat) : Rat) = (m : Rat) := by
    have : ((m.toNat : Nat) : Int) = m := Int.toNat_of_nonneg (by omega)
    exact_mod_cast congrArg (Int.cast (R := Rat)) this
  rw [hcast]
  have hx := nint_near x
  rw [abs_le] at hx
  obtain ⟨a, b⟩ := hx
  rcases lt_trichotomy (k : Int) m with h | h | h
  · -- k below the place: the point is at least halfway
    have h3 : (k : Rat) + 1 ≤ m := by exact_mod_cast h
    have h4 : m ≤ nint x := by omega
    have h5 : (m : Rat) ≤ nint x := by exact_mod_cast h4
    rw [abs_of_nonneg (by linarith : (0 : Rat) ≤ x - k), abs_le]
    constructor <;> linarith
  · rw [← h]; simp
  · have h3 : (m : Rat) + 1 ≤ k := by exact_mod_cast h
    have h4 : nint x ≤ m := by omega
    have h5 : (nint x : Rat) ≤ m := by exact_mod_cast h4
    rw [abs_of_nonpos (by linarith : x - (k : Rat) ≤ 0), abs_le]
    constructor <;> linarith

/-- C163.  With the code of the nearest neighbour a point before the first or a full step behind the last column or row gets the
value of the place of the grid which is nearest to it; other points keep their value. -/
theorem C163_nearest (z : Nat → Nat → Rat) (ni nj : Nat) (hi : 1 ≤ ni) (hj : 1 ≤ nj) (val : Rat) (pts : List (Rat × Rat × Rat)) (n : Nat)
    (px py old : Rat) (hp : pts[n]? = some (px, py, old)) :
    ∃ v, (ezXtrap z ni nj 0 val pts)[n]? = some v ∧
      ((px < 1 ∨ py < 1 ∨ (ni : Rat) + 1 ≤ px ∨ (nj : Rat) + 1 ≤ py) →
        ∃ i j, 1 ≤ i ∧ i ≤ ni ∧ 1 ≤ j ∧ j ≤ nj ∧ v = z i j ∧
          ∀ a b : Nat, 1 ≤ a → a ≤ ni → 1 ≤ b → b ≤ nj → (px - i) ^ 2 + (py - j) ^ 2 ≤ (px - a) ^ 2 + (py - b) ^ 2) ∧
      (1 ≤ px → px < (ni : Rat) + 1 → 1 ≤ py → py < (nj : Rat) + 1 → v = old) := by
  refine ⟨neighbour z ni nj px py old, by simp [ezXtrap, List.getElem?_map, hp], ?_, ?_⟩
  · intro h
    unfold neighbour
    rw [if_pos (by rw [ifix_lt_one, ifix_lt_one, lt_ifix, lt_ifix]; exact h)]
    refine ⟨_, _, (clamp_nearest px ni hi 1 le_rfl hi).1, (clamp_nearest px ni hi 1 le_rfl hi).2.1, (clamp_nearest py nj hj 1 le_rfl hj).1,
      (clamp_nearest py nj hj 1 le_rfl hj).2.1, rfl, ?_⟩
    intro a b a1 a2 b1 b2
    exact add_le_add (sq_le_sq.2 (clamp_nearest px ni hi a a1 a2).2.2) (sq_le_sq.2 (clamp_nearest py nj hj b b1 b2).2.2)
  · intro a b c d
    unfold neighbour
    rw [if_neg]
    rw [ifix_lt_one, ifix_lt_one, lt_ifix, lt_ifix]
    rintro (h | h | h | h) <;> linarith

theorem fold_extremes (L : List Rat) (a : Rat × Rat) :
    let r := L.foldl (fun a v => (if v < a.1 then v else a.1, if v > a.2 then v else a.2)) a
    (∀ v ∈ a.1 :: L, r.1 ≤ v) ∧ r.1 ∈ a.1 :: L ∧ (∀ v ∈ a.2 :: L, v ≤ r.2) ∧ r.2 ∈ a.2 :: L := by
  induction L generalizing a with
  | nil => simp
  | cons w L ih =>
    obtain ⟨h1, h2, h3, h4⟩ := ih (if w < a.1 then w else a.1, if w > a.2 then w else a.2)
    simp only [List.foldl_cons, List.mem_cons] at h1 h2 h3 h4 ⊢
    generalize List.foldl _ _ L = r at h1 h2 h3 h4 ⊢
    refine ⟨?_, ?_, ?_, ?_⟩
    · have h := h1 _ (Or.inl rfl)
      rintro v (rfl | rfl | hv)
      · split at h <;> linarith
      · split at h <;> linarith
      · exact h1 v (Or.inr hv)
    · rcases h2 with h | h
      · rw [h]; split <;> simp
      · exact Or.inr (Or.inr h)
    · have h := h3 _ (Or.inl rfl)
      rintro v (rfl | rfl | hv)
      · split at h <;> linarith
      · split at h <;> linarith
      · exact h3 v (Or.inr hv)
    · rcases h4 with h | h
      · rw [h]; split <;> simp
      · exact Or.inr (Or.inr h)

theorem mem_values {z : Nat → Nat → Rat} {ni nj : Nat} {v : Rat} :
    v ∈ values z ni nj ↔ ∃ i j, 1 ≤ i ∧ i ≤ ni ∧ 1 ≤ j ∧ j ≤ nj ∧ v = z i j := by
  simp only [values, List.mem_flatMap, List.mem_map, List.mem_range]
  constructor
  · rintro ⟨j, hj, i, hi, rfl⟩; exact ⟨i + 1, j + 1, by omega, by omega, by omega, by omega, rfl⟩
  · rintro ⟨i, j, i1, i2, j1, j2, rfl⟩
    exact ⟨j - 1, by omega, i - 1, by omega, by rw [Nat.sub_add_cancel i1, Nat.sub_add_cancel j1]⟩

/-- C163.  The codes of the minimum and the maximum give all points, those within the grid too, one value: the smallest or largest
value of the grid with a margin of a twentieth of the range. -/
theorem C163_extremes (z : Nat → Nat → Rat) (ni nj : Nat) (hi : 1 ≤ ni) (hj : 1 ≤ nj) (val : Rat) (pts : List (Rat × Rat × Rat)) :
    ∃ lo hi' : Rat, (∃ i j, 1 ≤ i ∧ i ≤ ni ∧ 1 ≤ j ∧ j ≤ nj ∧ lo = z i j) ∧ (∃ i j, 1 ≤ i ∧ i ≤ ni ∧ 1 ≤ j ∧ j ≤ nj ∧ hi' = z i j) ∧
      (∀ i j, 1 ≤ i → i ≤ ni → 1 ≤ j → j ≤ nj → lo ≤ z i j ∧ z i j ≤ hi') ∧
      ezXtrap z ni nj 5 val pts = List.replicate pts.length (lo - (hi' - lo) / 20) ∧
      ezXtrap z ni nj 4 val pts = List.replicate pts.length (hi' + (hi' - lo) / 20) := by
  obtain ⟨h1, h2, h3, h4⟩ := fold_extremes (values z ni nj) (z 1 1, z 1 1)
  have h11 : z 1 1 ∈ values z ni nj := mem_values.2 ⟨1, 1, le_rfl, hi, le_rfl, hj, rfl⟩
  have g2 : (extremes z ni nj).1 ∈ values z ni nj := by
    rcases List.mem_cons.1 h2 with h | h
    · exact (show (extremes z ni nj).1 = z 1 1 from h) ▸ h11
    · exact h
  have g4 : (extremes z ni nj).2 ∈ values z ni nj := by
    rcases List.mem_cons.1 h4 with h | h
    · exact (show (extremes z ni nj).2 = z 1 1 from h) ▸ h11
    · exact h
  refine ⟨_, _, mem_values.1 g2, mem_values.1 g4, ?_, ?_, ?_⟩
  · intro i j i1 i2 j1 j2
    have hm : z i j ∈ values z ni nj := mem_values.2 ⟨i, j, i1, i2, j1, j2, rfl⟩
    exact ⟨h1 _ (List.mem_cons_of_mem _ hm), h3 _ (List.mem_cons_of_mem _ hm)⟩
  · simp only [ezXtrap, limits]
    rw [List.eq_replicate_iff]
    refine ⟨by simp, fun v hv => ?_⟩
    simp only [List.mem_map] at hv
    obtain ⟨_, _, rfl⟩ := hv
    norm_num; ring
  · simp only [ezXtrap, limits]
    rw [List.eq_replicate_iff]
    refine ⟨by simp, fun v hv => ?_⟩
    simp only [List.mem_map] at hv
    obtain ⟨_, _, rfl⟩ := hv
    norm_num; ring

/-- C163.  A given value goes to all points; a code without a meaning here (those of the options `neutral`, `linear` and `cubic`, and
`abort`) changes none. -/
theorem C163_others (z : Nat → Nat → Rat) (ni nj : Nat) (cod : Int) (val : Rat) (pts : List (Rat × Rat × Rat)) :
    ezXtrap z ni nj 6 val pts = List.replicate pts.length val ∧
    (cod ≠ 0 → cod ≠ 4 → cod ≠ 5 → cod ≠ 6 → ezXtrap z ni nj cod val pts = pts.map (·.2.2)) := by
  constructor
  · rw [List.eq_replicate_iff]
    refine ⟨by simp [ezXtrap], fun v hv => ?_⟩
    simp only [ezXtrap, List.mem_map] at hv
    obtain ⟨_, _, rfl⟩ := hv
    norm_num
  · intro a b c d
    simp [ezXtrap, a, b, c, d]

/-- C163.  A point less than a step behind the last column is not in the grid, but is not extrapolated either. -/
theorem C163_last_witness : ezXtrap (fun i j => i + 10 * j) 3 2 0 0 [(39 / 10, 1, 77), (4, 1, 77), (9 / 10, 2, 77)] = [77, 13, 21] := by
  decide +kernel

example : ezXtrap (fun i j => i + 10 * j) 3 2 5 0 [(39 / 10, 1, 77), (2, 1, 77)] = [11 - 12 / 20, 11 - 12 / 20] ∧
    ezXtrap (fun i j => i + 10 * j) 3 2 4 0 [(39 / 10, 1, 77)] = [23 + 12 / 20] := by decide +kernel


end Verif.Xtrap
