import Verif.EzMask
import Mathlib.Tactic

namespace Verif.EzMask

/-! # C121, C122: masks -/

theorem trunc_eq {q : ℚ} {i : Int} (h0 : 0 ≤ i) (h1 : (i : ℚ) ≤ q) (h2 : q < i + 1) : trunc q = i := by
  have hq : (0 : ℚ) ≤ q := le_trans (by exact_mod_cast h0) h1
  rw [trunc, if_pos hq, Int.floor_eq_iff]
  exact ⟨h1, h2⟩

theorem nint_eq {q : ℚ} {i : Int} (h0 : 1 ≤ i) (h1 : (i : ℚ) - 1 / 2 ≤ q) (h2 : q < i + 1 / 2) : nint q = i := by
  have hi : (1 : ℚ) ≤ i := by exact_mod_cast h0
  have hq : (0 : ℚ) ≤ q := by linarith
  rw [nint, if_pos hq, Int.floor_eq_iff]
  constructor <;> linarith

theorem trunc_lt {q : ℚ} {n : Int} (h : 1 ≤ n) (h1 : q < n) : trunc q < n := by
  unfold trunc
  split_ifs
  · exact Int.floor_lt.2 h1
  · have : q ≤ ((0 : Int) : ℚ) := by push_cast; linarith
    have := Int.ceil_le.2 this
    omega

theorem le_trunc {q : ℚ} {n : Int} (h : 0 ≤ n) (h1 : (n : ℚ) ≤ q) : n ≤ trunc q := by
  have hq : (0 : ℚ) ≤ q := le_trans (by exact_mod_cast h) h1
  rw [trunc, if_pos hq]
  exact Int.le_floor.2 h1

/-- The nearest of two neighbours: it is one of them. -/
theorem nint_cell {q : ℚ} {i : Int} (h0 : 1 ≤ i) (h1 : (i : ℚ) ≤ q) (h2 : q < i + 1) :
    (nint q = i ∧ q < i + 1 / 2) ∨ (nint q = i + 1 ∧ (i : ℚ) + 1 / 2 ≤ q) := by
  rcases lt_or_ge q (i + 1 / 2) with h | h
  · exact Or.inl ⟨nint_eq h0 (by linarith) h, h⟩
  · refine Or.inr ⟨nint_eq (by omega) ?_ ?_, h⟩ <;> push_cast <;> linarith

theorem get_some {ni nj : Int} (m : Int → Int → Int) {i j : Int} (h : 1 ≤ i ∧ i ≤ ni ∧ 1 ≤ j ∧ j ≤ nj) :
    get ni nj m i j = some (m i j) := by rw [get, if_pos h]

/-- The points of the mask around a point of the cell `i`, `j` that are not missing. -/
def present (m : Int → Int → Int) (i j : Int) : Nat :=
  ([(i, j), (i + 1, j), (i, j + 1), (i + 1, j + 1)].filter fun c => m c.1 c.2 ≠ 0).length

/-- **C121** (inside the grid, see `C121_edge_witness`; the value 5 is never given, see `C121_nearest_witness`)
— Inside the grid the zone of a point is the number of points around it that are not missing. -/
theorem C121_partial (ni nj : Int) (m : Int → Int → Int) (x y : ℚ) (i j : Int) (hi : 1 ≤ i ∧ i < ni) (hj : 1 ≤ j ∧ j < nj)
    (hx : (i : ℚ) ≤ x ∧ x < i + 1) (hy : (j : ℚ) ≤ y ∧ y < j + 1) :
    maskZone ni nj m x y = some (present m i j) := by
  have ex := trunc_eq (by omega) hx.1 hx.2
  have ey := trunc_eq (by omega) hy.1 hy.2
  have hn : ∃ v, get ni nj m (nint x) (nint y) = some v := by
    rcases nint_cell hi.1 hx.1 hx.2 with ⟨e, -⟩ | ⟨e, -⟩ <;> rcases nint_cell hj.1 hy.1 hy.2 with ⟨e', -⟩ | ⟨e', -⟩ <;>
      rw [e, e'] <;> exact ⟨_, get_some m (by omega)⟩
  obtain ⟨v, hv⟩ := hn
  have hin : ¬ (i < 1 ∨ ni < i ∨ j < 1 ∨ nj < j) := by omega
  simp only [maskZone, ex, ey, if_neg hin, hv, get_some m (show 1 ≤ i ∧ i ≤ ni ∧ 1 ≤ j ∧ j ≤ nj by omega),
    get_some m (show 1 ≤ i ∧ i ≤ ni ∧ 1 ≤ j + 1 ∧ j + 1 ≤ nj by omega),
    get_some m (show 1 ≤ i + 1 ∧ i + 1 ≤ ni ∧ 1 ≤ j ∧ j ≤ nj by omega),
    get_some m (show 1 ≤ i + 1 ∧ i + 1 ≤ ni ∧ 1 ≤ j + 1 ∧ j + 1 ≤ nj by omega), bind, Option.bind, pure, present]
  by_cases a : m i j = 0 <;> by_cases b : m (i + 1) j = 0 <;> by_cases c : m i (j + 1) = 0 <;>
    by_cases d : m (i + 1) (j + 1) = 0 <;> simp [gone, zone, a, b, c, d, List.filter]

/-- **C121** — Points outside the grid are in zone 7. -/
theorem C121_outside (ni nj : Int) (m : Int → Int → Int) (x y : ℚ) (h0 : 0 ≤ ni ∧ 0 ≤ nj)
    (h : x < 1 ∨ y < 1 ∨ (ni : ℚ) + 1 ≤ x ∨ (nj : ℚ) + 1 ≤ y) : maskZone ni nj m x y = some 7 := by
  rw [maskZone, if_pos]
  rcases h with h | h | h | h
  · have := trunc_lt (q := x) (n := 1) le_rfl (by exact_mod_cast h)
    exact Or.inl this
  · have := trunc_lt (q := y) (n := 1) le_rfl (by exact_mod_cast h)
    exact Or.inr (Or.inr (Or.inl this))
  · have := le_trunc (q := x) (n := ni + 1) (by omega) (by push_cast; exact h)
    exact Or.inr (Or.inl (by omega))
  · have := le_trunc (q := y) (n := nj + 1) (by omega) (by push_cast; exact h)
    exact Or.inr (Or.inr (Or.inr (by omega)))

/-- **C121** — On the last column or row of the grid and up to one step beyond it, the mask is read outside the
array. -/
theorem C121_edge_witness (ni nj : Int) (m : Int → Int → Int) (x y : ℚ) (h0 : 1 ≤ ni ∧ 1 ≤ nj) (hx : 1 ≤ x ∧ x < ni + 1)
    (hy : 1 ≤ y ∧ y < nj + 1) (h : (ni : ℚ) ≤ x ∨ (nj : ℚ) ≤ y) : maskZone ni nj m x y = none := by
  have a1 := le_trunc (q := x) (n := 1) (by omega) (by exact_mod_cast hx.1)
  have a2 := trunc_lt (q := x) (n := ni + 1) (by omega) (by push_cast; exact hx.2)
  have b1 := le_trunc (q := y) (n := 1) (by omega) (by exact_mod_cast hy.1)
  have b2 := trunc_lt (q := y) (n := nj + 1) (by omega) (by push_cast; exact hy.2)
  have hin : ¬ (trunc x < 1 ∨ ni < trunc x ∨ trunc y < 1 ∨ nj < trunc y) := by omega
  have hd : get ni nj m (trunc x + 1) (trunc y + 1) = none := by
    rw [get, if_neg]
    rcases h with h | h
    · have := le_trunc (q := x) (n := ni) (by omega) h
      omega
    · have := le_trunc (q := y) (n := nj) (by omega) h
      omega
  simp only [maskZone, if_neg hin, hd, bind, Option.bind]
  cases get ni nj m (nint x) (nint y) <;> try rfl
  cases get ni nj m (trunc x) (trunc y) <;> try rfl
  cases get ni nj m (trunc x) (trunc y + 1) <;> try rfl
  cases get ni nj m (trunc x + 1) (trunc y) <;> rfl

/-- **C121** — The zone of points whose nearest point is missing, 5, is never given. -/
theorem C121_nearest_witness (ni nj : Int) (m : Int → Int → Int) (x y : ℚ) : maskZone ni nj m x y ≠ some 5 := by
  intro h
  simp only [maskZone] at h
  split_ifs at h
  · revert h
    decide
  · have hz : ∀ n, zone n ≠ 5 := by
      intro n
      unfold zone
      split <;> decide
    simp only [Option.bind_eq_bind, Option.bind_eq_some_iff, pure, Option.some.injEq] at h
    obtain ⟨_, -, _, -, _, -, _, -, _, -, e⟩ := h
    exact hz _ e

example : maskZone 3 3 (fun i j => if i = 2 ∧ j = 2 then 0 else 1) (3 / 2) (3 / 2) = some 3 :=
  C121_partial 3 3 _ _ _ 1 1 (by decide) (by decide) (by norm_num) (by norm_num)

/-! ## The mask of an interpolated field -/

/-- **C122** — With any algorithm but `linear` the mask of a point inside the grid is that of the nearest point
of the input grid. -/
theorem C122_nearest (niOut njOut io jo ni nj : Int) (m : Int → Int → Int) (x y : ℚ) (i j : Int)
    (hi : 1 ≤ i ∧ i ≤ ni) (hj : 1 ≤ j ∧ j ≤ nj) (h1 : 1 ≤ x ∧ 1 ≤ y)
    (hx : (i : ℚ) - 1 / 2 ≤ x ∧ x < i + 1 / 2) (hy : (j : ℚ) - 1 / 2 ≤ y ∧ y < j + 1 / 2) :
    sintMask false niOut njOut io jo ni nj m x y = some (if m i j = 0 then 0 else 1) := by
  have a1 := le_trunc (q := x) (n := 1) (by omega) (by exact_mod_cast h1.1)
  have a2 := trunc_lt (q := x) (n := i + 1) (by omega) (by push_cast; linarith)
  have b1 := le_trunc (q := y) (n := 1) (by omega) (by exact_mod_cast h1.2)
  have b2 := trunc_lt (q := y) (n := j + 1) (by omega) (by push_cast; linarith)
  have hin : ¬ (trunc x < 1 ∨ ni < trunc x ∨ trunc y < 1 ∨ nj < trunc y) := by omega
  simp only [sintMask, sintNear, if_neg hin, nint_eq hi.1 hx.1 hx.2, nint_eq hj.1 hy.1 hy.2,
    get_some m (show 1 ≤ i ∧ i ≤ ni ∧ 1 ≤ j ∧ j ≤ nj by omega), bind, Option.bind, pure, Bool.false_eq_true, false_and,
    if_false]

/-- **C122** — Points outside the grid are masked. -/
theorem C122_outside (linear : Bool) (niOut njOut io jo ni nj : Int) (m : Int → Int → Int) (x y : ℚ)
    (h0 : 0 ≤ ni ∧ 0 ≤ nj) (h : x < 1 ∨ y < 1 ∨ (ni : ℚ) + 1 ≤ x ∨ (nj : ℚ) + 1 ≤ y) :
    sintMask linear niOut njOut io jo ni nj m x y = some 0 := by
  have : trunc x < 1 ∨ ni < trunc x ∨ trunc y < 1 ∨ nj < trunc y := by
    rcases h with h | h | h | h
    · have := trunc_lt (q := x) (n := 1) le_rfl (by exact_mod_cast h)
      exact Or.inl this
    · have := trunc_lt (q := y) (n := 1) le_rfl (by exact_mod_cast h)
      exact Or.inr (Or.inr (Or.inl this))
    · have := le_trunc (q := x) (n := ni + 1) (by omega) (by push_cast; exact h)
      exact Or.inr (Or.inl (by omega))
    · have := le_trunc (q := y) (n := nj + 1) (by omega) (by push_cast; exact h)
      exact Or.inr (Or.inr (Or.inr (by omega)))
  simp only [sintMask, sintNear, if_pos this, bind, Option.bind, pure]
  simp

/-- **C122** (without the last column and row of the output, see `C122_last_witness`, and the corner `i`, `j`
when it is not the nearest point, see `C122_corner_witness`) — With `linear` a point is kept when none of the
points around it that are looked at is missing. -/
theorem C122_linear_partial (niOut njOut io jo ni nj : Int) (m : Int → Int → Int) (x y : ℚ) (i j : Int)
    (ho : io < niOut ∧ jo < njOut) (hi : 1 ≤ i ∧ i < ni) (hj : 1 ≤ j ∧ j < nj)
    (hx : (i : ℚ) ≤ x ∧ x < i + 1) (hy : (j : ℚ) ≤ y ∧ y < j + 1) :
    ∃ v, sintMask true niOut njOut io jo ni nj m x y = some v ∧ (v = 0 ∨ v = 1) ∧
      (v = 1 ↔ m (i + 1) j ≠ 0 ∧ m i (j + 1) ≠ 0 ∧ m (i + 1) (j + 1) ≠ 0 ∧
        (x < i + 1 / 2 ∧ y < j + 1 / 2 → m i j ≠ 0)) := by
  have ex := trunc_eq (by omega) hx.1 hx.2
  have ey := trunc_eq (by omega) hy.1 hy.2
  have hin : ¬ (i < 1 ∨ ni < i ∨ j < 1 ∨ nj < j) := by omega
  have ho' : io ≤ niOut - 1 ∧ jo ≤ njOut - 1 := by omega
  have g1 := get_some m (show 1 ≤ i ∧ i ≤ ni ∧ 1 ≤ j ∧ j ≤ nj by omega)
  have g2 := get_some m (show 1 ≤ i ∧ i ≤ ni ∧ 1 ≤ j + 1 ∧ j + 1 ≤ nj by omega)
  have g3 := get_some m (show 1 ≤ i + 1 ∧ i + 1 ≤ ni ∧ 1 ≤ j ∧ j ≤ nj by omega)
  have g4 := get_some m (show 1 ≤ i + 1 ∧ i + 1 ≤ ni ∧ 1 ≤ j + 1 ∧ j + 1 ≤ nj by omega)
  simp only [sintMask, sintNear, sintCell, ex, ey, if_neg hin]
  have nx : (nint x = i ∧ (x < i + 1 / 2) = True) ∨ (nint x = i + 1 ∧ (x < i + 1 / 2) = False) :=
    (nint_cell hi.1 hx.1 hx.2).imp (fun h => ⟨h.1, eq_true h.2⟩) (fun h => ⟨h.1, eq_false (not_lt.2 h.2)⟩)
  have ny : (nint y = j ∧ (y < j + 1 / 2) = True) ∨ (nint y = j + 1 ∧ (y < j + 1 / 2) = False) :=
    (nint_cell hj.1 hy.1 hy.2).imp (fun h => ⟨h.1, eq_true h.2⟩) (fun h => ⟨h.1, eq_false (not_lt.2 h.2)⟩)
  rcases nx with ⟨e, k⟩ | ⟨e, k⟩ <;> rcases ny with ⟨e', k'⟩ | ⟨e', k'⟩ <;>
    simp only [k, k', e, e', g1, g2, g3, g4, bind, Option.bind, pure] <;>
    by_cases a : m i j = 0 <;> by_cases b : m (i + 1) j = 0 <;> by_cases c : m i (j + 1) = 0 <;>
    by_cases d : m (i + 1) (j + 1) = 0 <;> simp [a, b, c, d, ho']

/-- **C122** — A point of the last column of the output is kept though a point around it is missing, with
`linear`. -/
theorem C122_last_witness :
    sintMask true 2 2 2 1 3 3 (fun i j => if i = 2 ∧ j = 2 then 0 else 1) (5 / 4) (5 / 4) = some 1 ∧
    sintMask true 2 2 1 1 3 3 (fun i j => if i = 2 ∧ j = 2 then 0 else 1) (5 / 4) (5 / 4) = some 0 := by
  constructor <;> decide +kernel

/-- **C122** — A point is kept though the point `ix`, `iy` around it is missing, with `linear`. -/
theorem C122_corner_witness :
    sintMask true 2 2 1 1 3 3 (fun i j => if i = 1 ∧ j = 1 then 0 else 1) (7 / 4) (7 / 4) = some 1 := by
  decide +kernel


/-! ## C123: filling of masked points -/

theorem mem_cells {ni nj : Nat} {c : Nat × Nat} :
    c ∈ cells ni nj ↔ 1 ≤ c.1 ∧ c.1 ≤ ni ∧ 1 ≤ c.2 ∧ c.2 ≤ nj := by
  simp only [cells, List.mem_flatMap, List.mem_range, List.mem_map]
  constructor
  · rintro ⟨j, hj, i, hi, rfl⟩
    simp only
    omega
  · intro h
    exact ⟨c.2 - 1, by omega, c.1 - 1, by omega, by ext <;> simp only <;> omega⟩

theorem foldl_min (l : List ℚ) : ∀ a : ℚ, (∀ x ∈ l, l.foldl min a ≤ x) ∧ l.foldl min a ≤ a ∧
    (l.foldl min a = a ∨ l.foldl min a ∈ l) := by
  induction l with
  | nil => intro a; simp
  | cons b l ih =>
    intro a
    obtain ⟨h1, h2, h3⟩ := ih (min a b)
    simp only [List.foldl_cons]
    refine ⟨fun x hx => ?_, le_trans h2 (min_le_left _ _), ?_⟩
    · rcases List.mem_cons.1 hx with rfl | hx
      · exact le_trans h2 (min_le_right _ _)
      · exact h1 x hx
    · rcases h3 with h3 | h3
      · rcases min_choice a b with e | e
        · exact Or.inl (by rw [h3, e])
        · exact Or.inr (by rw [h3, e]; simp)
      · exact Or.inr (List.mem_cons_of_mem _ h3)

theorem foldl_max (l : List ℚ) : ∀ a : ℚ, (∀ x ∈ l, x ≤ l.foldl max a) ∧ a ≤ l.foldl max a ∧
    (l.foldl max a = a ∨ l.foldl max a ∈ l) := by
  induction l with
  | nil => intro a; simp
  | cons b l ih =>
    intro a
    obtain ⟨h1, h2, h3⟩ := ih (max a b)
    simp only [List.foldl_cons]
    refine ⟨fun x hx => ?_, le_trans (le_max_left _ _) h2, ?_⟩
    · rcases List.mem_cons.1 hx with rfl | hx
      · exact le_trans (le_max_right _ _) h2
      · exact h1 x hx
    · rcases h3 with h3 | h3
      · rcases max_choice a b with e | e
        · exact Or.inl (by rw [h3, e])
        · exact Or.inr (by rw [h3, e]; simp)
      · exact Or.inr (List.mem_cons_of_mem _ h3)

/-- A point of the grid. -/
def In (ni nj i j : Nat) : Prop := 1 ≤ i ∧ i ≤ ni ∧ 1 ≤ j ∧ j ≤ nj

theorem minval_spec (ni nj : Nat) (f : F) (h : 1 ≤ ni ∧ 1 ≤ nj) :
    (∀ i j, In ni nj i j → minval ni nj f ≤ f i j) ∧ ∃ i j, In ni nj i j ∧ minval ni nj f = f i j := by
  obtain ⟨h1, h2, h3⟩ := foldl_min ((cells ni nj).map fun c => f c.1 c.2) (f 1 1)
  refine ⟨fun i j hij => h1 _ (List.mem_map.2 ⟨(i, j), mem_cells.2 hij, rfl⟩), ?_⟩
  rcases h3 with h3 | h3
  · exact ⟨1, 1, ⟨le_rfl, h.1, le_rfl, h.2⟩, h3⟩
  · obtain ⟨c, hc, e⟩ := List.mem_map.1 h3
    exact ⟨c.1, c.2, mem_cells.1 hc, e.symm⟩

theorem maxval_spec (ni nj : Nat) (f : F) (h : 1 ≤ ni ∧ 1 ≤ nj) :
    (∀ i j, In ni nj i j → f i j ≤ maxval ni nj f) ∧ ∃ i j, In ni nj i j ∧ maxval ni nj f = f i j := by
  obtain ⟨h1, h2, h3⟩ := foldl_max ((cells ni nj).map fun c => f c.1 c.2) (f 1 1)
  refine ⟨fun i j hij => h1 _ (List.mem_map.2 ⟨(i, j), mem_cells.2 hij, rfl⟩), ?_⟩
  rcases h3 with h3 | h3
  · exact ⟨1, 1, ⟨le_rfl, h.1, le_rfl, h.2⟩, h3⟩
  · obtain ⟨c, hc, e⟩ := List.mem_map.1 h3
    exact ⟨c.1, c.2, mem_cells.1 hc, e.symm⟩

instance (ni nj i j : Nat) : Decidable (In ni nj i j) := inferInstanceAs (Decidable (1 ≤ i ∧ i ≤ ni ∧ 1 ≤ j ∧ j ≤ nj))

/-- A filled field: points that are not masked are unchanged, and no value is outside the range of the field. -/
def Filled (ni nj : Nat) (m : Nat → Nat → Int) (f g : F) : Prop :=
  (∀ i j, m i j ≠ 0 ∨ ¬ In ni nj i j → g i j = f i j) ∧
  ∀ i j, In ni nj i j → (∃ a b, In ni nj a b ∧ f a b ≤ g i j) ∧ ∃ a b, In ni nj a b ∧ g i j ≤ f a b

/-- As `Filled`, with the range given. -/
def Kept (ni nj : Nat) (m : Nat → Nat → Int) (lo hi : ℚ) (f g : F) : Prop :=
  (∀ i j, m i j ≠ 0 ∨ ¬ In ni nj i j → g i j = f i j) ∧ ∀ i j, In ni nj i j → lo ≤ g i j ∧ g i j ≤ hi

theorem filled_of_kept {ni nj : Nat} (h : 1 ≤ ni ∧ 1 ≤ nj) {m : Nat → Nat → Int} {f g : F}
    (hk : Kept ni nj m (minval ni nj f) (maxval ni nj f) f g) : Filled ni nj m f g := by
  refine ⟨hk.1, fun i j hij => ?_⟩
  obtain ⟨-, a, b, hab, e1⟩ := minval_spec ni nj f h
  obtain ⟨-, c, d, hcd, e2⟩ := maxval_spec ni nj f h
  have := hk.2 i j hij
  exact ⟨⟨a, b, hab, by rw [← e1]; exact this.1⟩, ⟨c, d, hcd, by rw [← e2]; exact this.2⟩⟩

theorem kept_refl {ni nj : Nat} (h : 1 ≤ ni ∧ 1 ≤ nj) (m : Nat → Nat → Int) (f : F) :
    Kept ni nj m (minval ni nj f) (maxval ni nj f) f f :=
  ⟨fun _ _ _ => rfl, fun i j hij => ⟨(minval_spec ni nj f h).1 i j hij, (maxval_spec ni nj f h).1 i j hij⟩⟩

theorem min_le_max {ni nj : Nat} (h : 1 ≤ ni ∧ 1 ≤ nj) (f : F) : minval ni nj f ≤ maxval ni nj f :=
  le_trans ((minval_spec ni nj f h).1 1 1 ⟨le_rfl, h.1, le_rfl, h.2⟩)
    ((maxval_spec ni nj f h).1 1 1 ⟨le_rfl, h.1, le_rfl, h.2⟩)

theorem clip_range {lo hi : ℚ} (h : lo ≤ hi) (v : ℚ) : lo ≤ clip lo hi v ∧ clip lo hi v ≤ hi := by
  simp only [clip]
  split_ifs <;> constructor <;> linarith

theorem clip_id {lo hi v : ℚ} (h1 : lo ≤ v) (h2 : v ≤ hi) : clip lo hi v = v := by
  simp only [clip]
  rw [if_neg (not_lt.2 h1), if_neg (not_lt.2 h2)]

theorem kept_put {ni nj : Nat} {m : Nat → Nat → Int} {lo hi : ℚ} {f g : F} (hk : Kept ni nj m lo hi f g) (i j : Nat)
    (hij : In ni nj i j) (hm : m i j = 0) (v : ℚ) (hv : lo ≤ v ∧ v ≤ hi) : Kept ni nj m lo hi f (put g i j v) := by
  refine ⟨fun a b h => ?_, fun a b h => ?_⟩
  · rw [put, if_neg, hk.1 a b h]
    rintro ⟨rfl, rfl⟩
    rcases h with h | h
    · exact h hm
    · exact h hij
  · rw [put]
    split_ifs
    · exact hv
    · exact hk.2 a b h

theorem lor_row {ni nj : Nat} {m : Nat → Nat → Int} {lo hi : ℚ} (hlh : lo ≤ hi) {f : F} (j : Nat) (hj : 2 ≤ j ∧ j ≤ nj) (n : Nat) :
    ∀ g, n + 1 ≤ ni ∨ n = 0 → Kept ni nj m lo hi f g → Kept ni nj m lo hi f (loop2 (lor m lo hi j) n g) := by
  induction n with
  | zero => intro g _ hg; exact hg
  | succ n ih =>
    intro g hn hg
    have := ih g (by omega) hg
    rw [loop2, lor]
    split_ifs with hm
    · exact kept_put this _ _ ⟨by omega, by omega, by omega, by omega⟩ hm _ (clip_range hlh _)
    · exact this

theorem lor_all {ni nj : Nat} (h : 1 ≤ ni) {m : Nat → Nat → Int} {lo hi : ℚ} (hlh : lo ≤ hi) {f : F} (n : Nat) :
    ∀ g, n + 1 ≤ nj ∨ n = 0 → Kept ni nj m lo hi f g →
      Kept ni nj m lo hi f (loop2 (fun j => loop2 (lor m lo hi j) (ni - 1)) n g) := by
  induction n with
  | zero => intro g _ hg; exact hg
  | succ n ih =>
    intro g hn hg
    rw [loop2]
    exact lor_row hlh _ ⟨by omega, by omega⟩ _ _ (by omega) (ih g (by omega) hg)

theorem low_all {ni nj : Nat} {m : Nat → Nat → Int} {lo hi : ℚ} (hlh : lo ≤ hi) {f : F} (l : List (Nat × Nat)) :
    ∀ g, (∀ c ∈ l, In ni nj c.1 c.2) → Kept ni nj m lo hi f g → Kept ni nj m lo hi f (l.foldl (low m lo) g) := by
  induction l with
  | nil => intro g _ hg; exact hg
  | cons c l ih =>
    intro g hl hg
    rw [List.foldl_cons]
    refine ih _ (fun c' h => hl c' (by simp [h])) ?_
    rw [low]
    split_ifs with hm
    · exact kept_put hg _ _ (hl c (by simp)) hm _ ⟨le_rfl, hlh⟩
    · exact hg

/-! The third method, by rows. -/

/-- `Kept` for a row. -/
def KeptR (ni : Nat) (m : Nat → Int) (lo hi : ℚ) (r s : Nat → ℚ) : Prop :=
  (∀ i, m i ≠ 0 ∨ ¬ (1 ≤ i ∧ i ≤ ni) → s i = r i) ∧ ∀ i, 1 ≤ i ∧ i ≤ ni → lo ≤ s i ∧ s i ≤ hi

theorem carry_kept {ni : Nat} {m : Nat → Int} {lo hi : ℚ} {r : Nat → ℚ} (k : Nat) :
    ∀ (i last : Nat) (s : Nat → ℚ), 1 ≤ i → i + k ≤ ni + 1 → 1 ≤ last ∧ last ≤ ni → KeptR ni m lo hi r s →
      KeptR ni m lo hi r (carry m k i last s) := by
  induction k with
  | zero => intro i last s _ _ _ h; exact h
  | succ k ih =>
    intro i last s h1 h2 h3 h
    rw [carry]
    refine ih _ _ _ (by omega) (by omega) (by omega) ?_
    split_ifs with hm
    · refine ⟨fun a ha => ?_, fun a ha => ?_⟩
      · simp only
        rw [if_neg, h.1 a ha]
        rintro rfl
        rcases ha with ha | ha
        · exact ha hm
        · omega
      · simp only
        split_ifs
        · exact h.2 last h3
        · exact h.2 a ha
    · exact h

theorem find_first {n : Nat} {p : Nat → Bool} {i : Nat}
    (h : ((List.range n).map (· + 2)).find? p = some i) : 2 ≤ i ∧ i ≤ n + 1 ∧ p i = true ∧ ∀ a, 2 ≤ a → a < i → p a = false := by
  rw [List.find?_eq_some_iff_getElem] at h
  obtain ⟨hp, k, hk, e, hlt⟩ := h
  simp only [List.length_map, List.length_range] at hk
  simp only [List.getElem_map, List.getElem_range] at e
  refine ⟨by omega, by omega, hp, fun a h1 h2 => ?_⟩
  have := hlt (a - 2) (by omega)
  simp only [List.getElem_map, List.getElem_range] at this
  rw [show a - 2 + 2 = a by omega] at this
  simpa using this

theorem find_no {n : Nat} {p : Nat → Bool} (h : ((List.range n).map (· + 2)).find? p = none) :
    ∀ a, 2 ≤ a → a ≤ n + 1 → p a = false := by
  intro a h1 h2
  rw [List.find?_eq_none] at h
  have := h a (List.mem_map.2 ⟨a - 2, List.mem_range.2 (by omega), by omega⟩)
  simpa using this

theorem row3_kept {ni : Nat} (h1 : 1 ≤ ni) {m : Nat → Int} {lo hi : ℚ} (hlh : lo ≤ hi) {r s : Nat → ℚ}
    (hr : KeptR ni m lo hi r r) (h : row3 ni m lo r = some s) : KeptR ni m lo hi r s := by
  simp only [row3] at h
  split_ifs at h with hm hn
  · split at h
    · rename_i hf
      cases h
      have hno := find_no hf
      refine ⟨fun a ha => ?_, fun a ha => ?_⟩
      · simp only [fill]
        split_ifs with hin
        · exfalso
          rcases ha with ha | ha
          · by_cases e : a = 1
            · subst e
              exact ha hm
            · have := hno a (by omega) (by omega)
              simp only [ne_eq, decide_not, Bool.not_eq_eq_eq_not, Bool.not_false, decide_eq_true_eq] at this
              exact ha this
          · exact ha hin
        · rfl
      · rw [fill, if_pos ha]
        exact ⟨le_rfl, hlh⟩
    · rename_i i hf
      cases h
      obtain ⟨f1, f2, f3, f4⟩ := find_first hf
      refine carry_kept _ _ _ _ (by omega) (by omega) (by omega) ?_
      split_ifs with hlt
      · refine ⟨fun a ha => ?_, fun a ha => ?_⟩
        · simp only [fill]
          split_ifs with hin
          · exfalso
            rcases ha with ha | ha
            · by_cases e : a = 1
              · subst e
                exact ha hm
              · have := f4 a (by omega) (by omega)
                simp only [ne_eq, decide_not, Bool.not_eq_eq_eq_not, Bool.not_false, decide_eq_true_eq] at this
                exact ha this
            · omega
          · rfl
        · simp only [fill]
          split_ifs
          · exact hr.2 i (by omega)
          · exact hr.2 a ha
      · exact hr
  · cases h
    exact carry_kept _ _ _ _ (by omega) (by omega) (by omega) hr

/-- **C123** — Whatever the method, points that are not masked keep their value, and no value goes outside the
range of the field. -/
theorem C123_keep (methode : Int) (ni nj : Nat) (h : 1 ≤ ni ∧ 1 ≤ nj) (m : Nat → Nat → Int) (f g : F)
    (hg : lorenzo methode ni nj m f = some g) : Filled ni nj m f g := by
  refine filled_of_kept h ?_
  have hlh := min_le_max h f
  have h0 := kept_refl h m f
  simp only [lorenzo] at hg
  split_ifs at hg with e1 e2 e3 e4
  · cases hg
    exact lor_all h.1 hlh _ _ (by omega) h0
  · cases hg
    exact low_all hlh _ _ (fun c hc => mem_cells.1 hc) h0
  · cases hg
    have hrow : ∀ j, 1 ≤ j ∧ j ≤ nj → KeptR ni (fun i => m i j) (minval ni nj f) (maxval ni nj f) (fun i => f i j)
        ((row3 ni (fun i => m i j) (minval ni nj f) fun i => f i j).getD fun i => f i j) := by
      intro j hj
      have := e4 (j - 1) (List.mem_range.2 (by omega))
      rw [Nat.sub_add_cancel hj.1] at this
      obtain ⟨s, hs⟩ := Option.isSome_iff_exists.1 this
      rw [hs, Option.getD_some]
      refine row3_kept h.1 hlh ⟨fun _ _ => rfl, fun i hi => ?_⟩ hs
      exact h0.2 i j ⟨hi.1, hi.2, hj.1, hj.2⟩
    refine ⟨fun i j hij => ?_, fun i j hij => ?_⟩
    · simp only
      split_ifs with hj
      · refine (hrow j hj).1 i (hij.imp id fun hno hi => hno ⟨hi.1, hi.2, hj.1, hj.2⟩)
      · rfl
    · simp only
      rw [if_pos ⟨hij.2.2.1, hij.2.2.2⟩]
      exact (hrow j ⟨hij.2.2.1, hij.2.2.2⟩).2 i ⟨hij.1, hij.2.1⟩
  · cases hg
    exact h0

theorem low_mem (m : Nat → Nat → Int) (v : ℚ) (l : List (Nat × Nat)) :
    ∀ g : F, ∀ i j, (l.foldl (low m v) g) i j = if (i, j) ∈ l ∧ m i j = 0 then v else g i j := by
  induction l with
  | nil => intro g i j; simp
  | cons c l ih =>
    intro g i j
    rw [List.foldl_cons, ih]
    by_cases hm : m i j = 0
    · by_cases hl : (i, j) ∈ l
      · simp [hm, hl]
      · by_cases hc : c = (i, j)
        · subst hc
          simp [hm, hl, low, put]
        · have hc' : ¬ (i = c.1 ∧ j = c.2) := fun e => hc (by ext <;> simp [e.1, e.2])
          have hc'' : ¬ ((i, j) = c) := fun e => hc e.symm
          simp only [hl, List.mem_cons, hc'', false_or, false_and, if_false, low]
          split_ifs <;> simp [put, hc']
    · have : low m v g c i j = g i j := by
        rw [low]
        split_ifs with h0
        · rw [put, if_neg]
          rintro ⟨rfl, rfl⟩
          exact hm h0
        · rfl
      simp [hm, this]

/-- **C123** — With the second method, the one that is used, every masked point takes the least value of the
field. -/
theorem C123_minimum (ni nj : Nat) (h : 1 ≤ ni ∧ 1 ≤ nj) (m : Nat → Nat → Int) (f : F) :
    ∃ g low, lorenzo 2 ni nj m f = some g ∧ (∀ i j, In ni nj i j → low ≤ f i j) ∧
      (∃ i j, In ni nj i j ∧ f i j = low) ∧
      ∀ i j, g i j = if In ni nj i j ∧ m i j = 0 then low else f i j := by
  obtain ⟨h1, a, b, h2, h3⟩ := minval_spec ni nj f h
  refine ⟨_, minval ni nj f, rfl, h1, ⟨a, b, h2, h3.symm⟩, fun i j => ?_⟩
  rw [low_mem]
  simp only [mem_cells]
  rfl

/-- The rows and columns done so far. -/
theorem lor_sum_row (m : Nat → Nat → Int) (lo hi : ℚ) (g : F) (a b : Nat → ℚ) (hsum : ∀ i j, g i j = a i + b j)
    (ni nj j : Nat) (hj : 2 ≤ j ∧ j ≤ nj) (hr : ∀ i j, In ni nj i j → lo ≤ g i j ∧ g i j ≤ hi) (n : Nat) :
    ∀ f : F, n + 1 ≤ ni ∨ n = 0 → (∀ i, 1 ≤ i → i ≤ ni → f i (j - 1) = g i (j - 1)) →
      (∀ i j', In ni nj i j' → m i j' ≠ 0 ∨ i = 1 ∨ j' = 1 → f i j' = g i j') →
      (∀ i j', j' ≠ j → (loop2 (lor m lo hi j) n f) i j' = f i j') ∧
      (∀ i, 1 ≤ i → i ≤ n + 1 → i ≤ ni → (loop2 (lor m lo hi j) n f) i j = g i j) ∧
      ∀ i, n + 1 < i → (loop2 (lor m lo hi j) n f) i j = f i j := by
  induction n with
  | zero =>
    intro f _ _ h2
    refine ⟨fun _ _ _ => rfl, fun i h3 h4 h5 => ?_, fun _ _ => rfl⟩
    obtain rfl : i = 1 := by omega
    exact h2 1 j ⟨le_rfl, h5, by omega, hj.2⟩ (Or.inr (Or.inl rfl))
  | succ n ih =>
    intro f hn h1 h2
    obtain ⟨i1, i2, i3⟩ := ih f (by omega) h1 h2
    simp only [loop2]
    set f' := loop2 (lor m lo hi j) n f with hf'
    have hin : In ni nj (n + 2) j := ⟨by omega, by omega, by omega, hj.2⟩
    have e1 : f' (n + 2 - 1) j = g (n + 1) j := i2 (n + 1) (by omega) (by omega) (by omega)
    have e2 : f' (n + 2) (j - 1) = g (n + 2) (j - 1) := by rw [i1 _ _ (by omega), h1 _ (by omega) (by omega)]
    have e3 : f' (n + 2 - 1) (j - 1) = g (n + 1) (j - 1) := by
      rw [show n + 2 - 1 = n + 1 from rfl, i1 _ _ (by omega), h1 _ (by omega) (by omega)]
    have hval : f' (n + 2 - 1) j + f' (n + 2) (j - 1) - f' (n + 2 - 1) (j - 1) = g (n + 2) j := by
      rw [e1, e2, e3]
      simp only [hsum]
      ring
    have hc := hr _ _ hin
    by_cases hm : m (n + 2) j = 0
    · simp only [lor, if_pos hm, hval, clip_id hc.1 hc.2]
      refine ⟨fun i j' hne => ?_, fun i h3 h4 h5 => ?_, fun i h3 => ?_⟩
      · rw [put, if_neg (by tauto), i1 _ _ hne]
      · rw [put]
        split_ifs with e
        · rw [e.1]
        · exact i2 i h3 (by omega) h5
      · rw [put, if_neg (by omega), i3 i (by omega)]
    · simp only [lor, if_neg hm]
      refine ⟨i1, fun i h3 h4 h5 => ?_, fun i h3 => i3 i (by omega)⟩
      by_cases e : i = n + 2
      · subst e
        rw [i3 _ (by omega)]
        exact h2 _ _ hin (Or.inl hm)
      · exact i2 i h3 (by omega) h5

theorem lor_sum_all (m : Nat → Nat → Int) (lo hi : ℚ) (g : F) (a b : Nat → ℚ) (hsum : ∀ i j, g i j = a i + b j)
    (ni nj : Nat) (hni : 1 ≤ ni) (hr : ∀ i j, In ni nj i j → lo ≤ g i j ∧ g i j ≤ hi) (n : Nat) :
    ∀ f : F, n + 1 ≤ nj ∨ n = 0 →
      (∀ i j', In ni nj i j' → m i j' ≠ 0 ∨ i = 1 ∨ j' = 1 → f i j' = g i j') →
      (∀ i j', In ni nj i j' → m i j' ≠ 0 ∨ i = 1 ∨ j' = 1 →
        (loop2 (fun j => loop2 (lor m lo hi j) (ni - 1)) n f) i j' = g i j') ∧
      ∀ i j', In ni nj i j' → j' ≤ n + 1 → (loop2 (fun j => loop2 (lor m lo hi j) (ni - 1)) n f) i j' = g i j' := by
  induction n with
  | zero =>
    intro f _ h2
    exact ⟨h2, fun i j' hin hj => h2 i j' hin (Or.inr (Or.inr (by have := hin.2.2.1; omega)))⟩
  | succ n ih =>
    intro f hn h2
    obtain ⟨i1, i2⟩ := ih f (by omega) h2
    simp only [loop2]
    set f' := loop2 (fun j => loop2 (lor m lo hi j) (ni - 1)) n f with hf'
    obtain ⟨k1, k2, -⟩ := lor_sum_row m lo hi g a b hsum ni nj (n + 2) ⟨by omega, by omega⟩ hr (ni - 1) f' (by omega)
      (fun i h3 h4 => i2 i (n + 1) ⟨h3, h4, by omega, by omega⟩ le_rfl) i1
    refine ⟨fun i j' hin hm => ?_, fun i j' hin hj => ?_⟩
    · by_cases e : j' = n + 2
      · subst e
        exact k2 i hin.1 (by have := hin.2.1; omega) hin.2.1
      · rw [k1 _ _ e]
        exact i1 i j' hin hm
    · by_cases e : j' = n + 2
      · subst e
        exact k2 i hin.1 (by have := hin.2.1; omega) hin.2.1
      · rw [k1 _ _ e]
        exact i2 i j' hin (by omega)

/-- **C123** — With the first method a field that is the sum of a function of the column and a function of the
row is recovered, whatever its masked points outside the first row and column hold, provided the clipping does
not touch it. -/
theorem C123_lorenzo (ni nj : Nat) (h : 1 ≤ ni ∧ 1 ≤ nj) (m : Nat → Nat → Int) (f g : F) (a b : Nat → ℚ)
    (hsum : ∀ i j, g i j = a i + b j)
    (heq : ∀ i j, In ni nj i j → m i j ≠ 0 ∨ i = 1 ∨ j = 1 → f i j = g i j)
    (hrange : ∀ i j, In ni nj i j → (∃ c d, In ni nj c d ∧ f c d ≤ g i j) ∧ ∃ c d, In ni nj c d ∧ g i j ≤ f c d) :
    ∃ g', lorenzo 1 ni nj m f = some g' ∧ ∀ i j, In ni nj i j → g' i j = g i j := by
  refine ⟨_, rfl, fun i j hin => ?_⟩
  have hr : ∀ i j, In ni nj i j → minval ni nj f ≤ g i j ∧ g i j ≤ maxval ni nj f := by
    intro i j hij
    obtain ⟨⟨c, d, hc, h1⟩, ⟨c', d', hc', h2⟩⟩ := hrange i j hij
    exact ⟨le_trans ((minval_spec ni nj f h).1 c d hc) h1, le_trans h2 ((maxval_spec ni nj f h).1 c' d' hc')⟩
  exact (lor_sum_all m _ _ g a b hsum ni nj h.1 hr (nj - 1) f (by omega) heq).2 i j hin (by have := hin.2.2.2; omega)

/-- What the first method does to one row. -/
theorem lor_row_eq (m : Nat → Nat → Int) (lo hi : ℚ) (j : Nat) (hj : 2 ≤ j) (f : F) (n : Nat) :
    (∀ i j', j' ≠ j ∨ i < 2 ∨ n + 1 < i → (loop2 (lor m lo hi j) n f) i j' = f i j') ∧
    ∀ i, 2 ≤ i → i ≤ n + 1 → (loop2 (lor m lo hi j) n f) i j =
      if m i j = 0 then clip lo hi ((loop2 (lor m lo hi j) n f) (i - 1) j + f i (j - 1) - f (i - 1) (j - 1))
      else f i j := by
  induction n with
  | zero => exact ⟨fun _ _ _ => rfl, fun i h1 h2 => by omega⟩
  | succ n ih =>
    obtain ⟨i1, i2⟩ := ih
    simp only [loop2]
    set f' := loop2 (lor m lo hi j) n f with hf'
    have hne : ∀ a b, ¬ (a = n + 2 ∧ b = j) → lor m lo hi j (n + 2) f' a b = f' a b := by
      intro a b h
      rw [lor]
      split_ifs
      · rw [put, if_neg h]
      · rfl
    refine ⟨fun i j' h => ?_, fun i h1 h2 => ?_⟩
    · rw [hne _ _ (by omega)]
      exact i1 i j' (by omega)
    · by_cases e : i = n + 2
      · subst e
        rw [hne (n + 2 - 1) j (by omega)]
        rw [lor]
        split_ifs with hm
        · rw [put, if_pos ⟨rfl, rfl⟩, i1 (n + 2) (j - 1) (by omega), i1 (n + 2 - 1) (j - 1) (by omega)]
        · exact i1 _ _ (by omega)
      · rw [hne _ _ (by omega), hne _ _ (by omega)]
        exact i2 i h1 (by omega)

theorem lor_all_eq (m : Nat → Nat → Int) (lo hi : ℚ) (w : Nat) (f : F) (n : Nat) :
    (∀ i j, j < 2 ∨ n + 1 < j ∨ i < 2 ∨ w + 1 < i →
      (loop2 (fun j => loop2 (lor m lo hi j) w) n f) i j = f i j) ∧
    ∀ i j, 2 ≤ i → i ≤ w + 1 → 2 ≤ j → j ≤ n + 1 →
      (loop2 (fun j => loop2 (lor m lo hi j) w) n f) i j =
        if m i j = 0 then clip lo hi ((loop2 (fun j => loop2 (lor m lo hi j) w) n f) (i - 1) j +
          (loop2 (fun j => loop2 (lor m lo hi j) w) n f) i (j - 1) -
          (loop2 (fun j => loop2 (lor m lo hi j) w) n f) (i - 1) (j - 1))
        else f i j := by
  induction n with
  | zero => exact ⟨fun _ _ _ => rfl, fun i j _ _ h1 h2 => by omega⟩
  | succ n ih =>
    obtain ⟨i1, i2⟩ := ih
    simp only [loop2]
    set f' := loop2 (fun j => loop2 (lor m lo hi j) w) n f with hf'
    obtain ⟨k1, k2⟩ := lor_row_eq m lo hi (n + 2) (by omega) f' w
    refine ⟨fun i j h => ?_, fun i j h1 h2 h3 h4 => ?_⟩
    · rw [k1 _ _ (by omega)]
      exact i1 i j (by omega)
    · by_cases e : j = n + 2
      · subst e
        rw [k2 i h1 h2, i1 i (n + 2) (by omega), k1 i (n + 2 - 1) (by omega), k1 (i - 1) (n + 2 - 1) (by omega)]
      · rw [k1 i j (by omega), k1 (i - 1) j (by omega), k1 i (j - 1) (by omega), k1 (i - 1) (j - 1) (by omega)]
        exact i2 i j h1 h2 h3 (by omega)

/-- **C123** — The first method, exactly: the first row and column are left as they are, and a masked point takes the
prediction from its neighbours to the left, below and both, brought into the range of the field. -/
theorem C123_predict (ni nj : Nat) (h : 1 ≤ ni ∧ 1 ≤ nj) (m : Nat → Nat → Int) (f : F) :
    ∃ g lo hi, lorenzo 1 ni nj m f = some g ∧ (∀ i j, In ni nj i j → lo ≤ f i j ∧ f i j ≤ hi) ∧
      (∃ i j, In ni nj i j ∧ f i j = lo) ∧ (∃ i j, In ni nj i j ∧ f i j = hi) ∧
      ∀ i j, In ni nj i j → g i j = if m i j = 0 ∧ 2 ≤ i ∧ 2 ≤ j then
        min hi (max lo (g (i - 1) j + g i (j - 1) - g (i - 1) (j - 1))) else f i j := by
  obtain ⟨h1, a, b, h2, h3⟩ := minval_spec ni nj f h
  obtain ⟨h1', a', b', h2', h3'⟩ := maxval_spec ni nj f h
  have hlh := min_le_max h f
  refine ⟨_, minval ni nj f, maxval ni nj f, rfl, fun i j hij => ⟨h1 i j hij, h1' i j hij⟩, ⟨a, b, h2, h3.symm⟩,
    ⟨a', b', h2', h3'.symm⟩, fun i j hij => ?_⟩
  have hclip : ∀ v, clip (minval ni nj f) (maxval ni nj f) v = min (maxval ni nj f) (max (minval ni nj f) v) := by
    intro v
    simp only [clip]
    split_ifs with c1 c2 c2
    · linarith
    · rw [max_eq_left c1.le, min_eq_right hlh]
    · rw [max_eq_right (not_lt.1 c1), min_eq_left c2.le]
    · rw [max_eq_right (not_lt.1 c1), min_eq_right (not_lt.1 c2)]
  obtain ⟨k1, k2⟩ := lor_all_eq m (minval ni nj f) (maxval ni nj f) (ni - 1) f (nj - 1)
  obtain ⟨g1, g2, g3, g4⟩ := hij
  by_cases e : 2 ≤ i ∧ 2 ≤ j
  · rw [k2 i j e.1 (by omega) e.2 (by omega), hclip]
    simp only [e.1, e.2, and_true]
  · rw [if_neg (by tauto), k1 i j (by omega)]

/-- What `carry` does. -/
theorem carry_spec (m : Nat → Int) (k : Nat) : ∀ (i last : Nat) (s : Nat → ℚ), last < i →
    (∀ a, a < i ∨ i + k ≤ a → carry m k i last s a = s a) ∧
    (∀ a, i ≤ a → a < i + k → m a ≠ 0 → carry m k i last s a = s a) ∧
    (∀ a, i ≤ a → a < i + k → m a = 0 →
      carry m k i last s a = if a = i then s last else carry m k i last s (a - 1)) := by
  induction k with
  | zero =>
    intro i last s _
    exact ⟨fun _ _ => rfl, fun a h1 h2 => by omega, fun a h1 h2 => by omega⟩
  | succ k ih =>
    intro i last s hl
    rw [carry]
    set s' := (if m i = 0 then fun a => if a = i then s last else s a else s) with hs'
    have hne : ∀ a, a ≠ i → s' a = s a := by
      intro a ha
      rw [hs']
      split_ifs
      · simp [ha]
      · rfl
    have heq : m i ≠ 0 → s' i = s i := fun h => by rw [hs', if_neg h]
    have heq0 : m i = 0 → s' i = s last := fun h => by rw [hs', if_pos h]; simp
    obtain ⟨h1, h2, h3⟩ := ih (i + 1) i s' (by omega)
    refine ⟨fun a ha => ?_, fun a h4 h5 h6 => ?_, fun a h4 h5 h6 => ?_⟩
    · rw [h1 a (by omega), hne a (by omega)]
    · by_cases e : a = i
      · subst e
        rw [h1 a (by omega), heq h6]
      · rw [h2 a (by omega) (by omega) h6, hne a e]
    · by_cases e : a = i
      · subst e
        rw [if_pos rfl, h1 a (by omega), heq0 h6]
      · rw [if_neg e, h3 a (by omega) (by omega) h6]
        split_ifs with e'
        · subst e'
          rw [show i + 1 - 1 = i by omega, h1 i (by omega)]
        · rfl

/-- **C123** (see `C123_row_witness`) — With the third method a masked point takes the value of the nearest point
to its left that is not masked, or of the first one of its row, unless this one is the last; a row without any
takes the least value of the field. -/
theorem C123_row_partial (ni nj : Nat) (h : 2 ≤ ni) (m : Nat → Nat → Int) (f : F)
    (hlast : ∀ j, 1 ≤ j → j ≤ nj → ∃ i, 1 ≤ i ∧ i < ni ∧ m i j ≠ 0) :
    ∃ g, lorenzo 3 ni nj m f = some g ∧
      ∀ i j, In ni nj i j →
        (∀ c, 1 ≤ c → c ≤ i → m c j ≠ 0 → (∀ d, c < d → d ≤ i → m d j = 0) → g i j = f c j) ∧
        (∀ c, i < c → c ≤ ni → m c j ≠ 0 → (∀ d, 1 ≤ d → d < c → m d j = 0) → g i j = f c j) := by
  have hrow : ∀ j, 1 ≤ j → j ≤ nj → ∃ s, row3 ni (fun i => m i j) (minval ni nj f) (fun i => f i j) = some s ∧
      ∀ i, 1 ≤ i → i ≤ ni →
        (∀ c, 1 ≤ c → c ≤ i → m c j ≠ 0 → (∀ d, c < d → d ≤ i → m d j = 0) → s i = f c j) ∧
        (∀ c, i < c → c ≤ ni → m c j ≠ 0 → (∀ d, 1 ≤ d → d < c → m d j = 0) → s i = f c j) := by
    intro j hj1 hj2
    obtain ⟨i0, a1, a2, a3⟩ := hlast j hj1 hj2
    by_cases hm : m 1 j = 0
    · have hne : i0 ≠ 1 := by
        rintro rfl
        exact a3 hm
      cases hf : ((List.range (ni - 1)).map (· + 2)).find? fun i => decide (m i j ≠ 0) with
      | none =>
        have := find_no hf i0 (by omega) (by omega)
        simp only [ne_eq, decide_not, Bool.not_eq_eq_eq_not, Bool.not_false, decide_eq_true_eq] at this
        exact absurd this a3
      | some p =>
        obtain ⟨f1, f2, f3, f4⟩ := find_first hf
        have f4' : ∀ d, 1 ≤ d → d < p → m d j = 0 := by
          intro d h1 h2
          by_cases e : d = 1
          · rw [e, hm]
          · have := f4 d (by omega) h2
            simpa using this
        have f3' : m p j ≠ 0 := by simpa using f3
        have hp : p < ni := by
          by_contra hcon
          exact a3 (f4' i0 a1 (by omega))
        refine ⟨_, by rw [row3, if_pos hm, if_neg (by omega), hf], ?_⟩
        rw [if_pos hp]
        set r := fill (fun i => f i j) (p - 1) (f p j) with hr
        obtain ⟨c1, c2, c3⟩ := carry_spec (fun i => m i j) (ni - p) (p + 1) 1 r (by omega)
        have hfirst : ∀ i, 1 ≤ i → i ≤ p → carry (fun i => m i j) (ni - p) (p + 1) 1 r i = f p j := by
          intro i h1 h2
          rw [c1 i (by omega), hr, fill]
          split_ifs
          · rfl
          · rw [show i = p by omega]
        have hleft : ∀ i, 1 ≤ i → i ≤ ni → ∀ c, 1 ≤ c → c ≤ i → m c j ≠ 0 → (∀ d, c < d → d ≤ i → m d j = 0) →
            carry (fun i => m i j) (ni - p) (p + 1) 1 r i = f c j := by
          intro i
          induction i with
          | zero => intro h1; omega
          | succ i ih =>
            intro h1 h2 c g1 g2 g3 g4
            have hcp : p ≤ c := by
              by_contra hcon
              exact g3 (f4' c g1 (by omega))
            by_cases e : c = i + 1
            · by_cases e' : i + 1 = p
              · rw [hfirst _ (by omega) (by omega), e, e']
              · rw [c2 (i + 1) (by omega) (by omega) (by rw [← e]; exact g3), hr, fill, if_neg (by omega), e]
            · have hm0 := g4 (i + 1) (by omega) le_rfl
              rw [c3 (i + 1) (by omega) (by omega) hm0]
              split_ifs with e'
              · have hcp' : c = p := by omega
                rw [hr, fill, if_pos (by omega), hcp']
              · rw [Nat.add_sub_cancel]
                exact ih (by omega) (by omega) c g1 (by omega) g3 (fun d h3 h4 => g4 d h3 (by omega))
        intro i h1 h2
        refine ⟨hleft i h1 h2, fun c g1 g2 g3 g4 => ?_⟩
        have hcp : c = p := by
          rcases Nat.lt_trichotomy c p with hlt | heq | hgt
          · exact absurd (f4' c (by omega) hlt) g3
          · exact heq
          · exact absurd (g4 p (by omega) hgt) f3'
        rw [hfirst i h1 (by omega), hcp]
    · refine ⟨_, by rw [row3, if_neg hm], ?_⟩
      obtain ⟨c1, c2, c3⟩ := carry_spec (fun i => m i j) (ni - 1) 2 1 (fun i => f i j) (by omega)
      have hleft : ∀ i, 1 ≤ i → i ≤ ni → ∀ c, 1 ≤ c → c ≤ i → m c j ≠ 0 → (∀ d, c < d → d ≤ i → m d j = 0) →
          carry (fun i => m i j) (ni - 1) 2 1 (fun i => f i j) i = f c j := by
        intro i
        induction i with
        | zero => intro h1; omega
        | succ i ih =>
          intro h1 h2 c g1 g2 g3 g4
          by_cases e : c = i + 1
          · by_cases e' : i + 1 = 1
            · rw [c1 (i + 1) (by omega), e]
            · rw [c2 (i + 1) (by omega) (by omega) (by rw [← e]; exact g3), e]
          · have hm0 := g4 (i + 1) (by omega) le_rfl
            rw [c3 (i + 1) (by omega) (by omega) hm0]
            split_ifs with e'
            · rw [show c = 1 by omega]
            · rw [Nat.add_sub_cancel]
              exact ih (by omega) (by omega) c g1 (by omega) g3 (fun d h3 h4 => g4 d h3 (by omega))
      intro i h1 h2
      exact ⟨hleft i h1 h2, fun c g1 g2 g3 g4 => absurd (g4 1 le_rfl (by omega)) hm⟩
  have hall : ∀ j ∈ List.range nj, (row3 ni (fun i => m i (j + 1)) (minval ni nj f) fun i => f i (j + 1)).isSome := by
    intro j hj
    obtain ⟨s, hs, -⟩ := hrow (j + 1) (by omega) (by have := List.mem_range.1 hj; omega)
    rw [hs]
    rfl
  refine ⟨_, by
    simp only [lorenzo]
    rw [if_neg (by decide), if_neg (by decide), if_pos (by trivial), if_pos hall], fun i j hij => ?_⟩
  obtain ⟨s, hs, hspec⟩ := hrow j hij.2.2.1 hij.2.2.2
  rw [if_pos ⟨hij.2.2.1, hij.2.2.2⟩, hs, Option.getD_some]
  exact hspec i hij.1 hij.2.1

/-- **C123** — Masked points of a row whose only value is in its last column are not filled; with one column the
third method reads outside the mask. -/
theorem C123_row_witness :
    (∃ g, lorenzo 3 3 1 (fun i _ => if i = 3 then 1 else 0) (fun i _ => i) = some g ∧ g 1 1 = 1 ∧ g 2 1 = 2) ∧
    (lorenzo 3 1 1 (fun _ _ => 0) fun _ _ => 5).isNone = true := by
  refine ⟨⟨_, rfl, by decide +kernel, by decide +kernel⟩, by decide +kernel⟩

example : ∃ g, lorenzo 3 4 1 (fun i _ => if i = 2 then 1 else 0) (fun i _ => i) = some g ∧ g 1 1 = 2 ∧ g 4 1 = 2 :=
  ⟨_, rfl, by decide +kernel, by decide +kernel⟩

example : ∃ g, lorenzo 1 2 2 (fun i j => if i = 2 ∧ j = 2 then 0 else 1) (fun i j => if i = 2 ∧ j = 2 then 9 else i + 2 * j)
    = some g ∧ g 2 2 = 6 := ⟨_, rfl, by decide +kernel⟩


end Verif.EzMask
