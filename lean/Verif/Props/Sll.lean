import Verif.Sll
import Mathlib.Tactic
import Mathlib.Data.Rat.Floor

namespace Verif.Sll

/-! # C172: interpolation in a regular grid -/

/-- A cubic. -/
def P3 (k : Nat → ℚ) (x : ℚ) : ℚ := k 0 + k 1 * x + k 2 * x ^ 2 + k 3 * x ^ 3

/-- A polynomial of degree 3 in each variable. -/
def bicubic (c : Nat → Nat → ℚ) (x y : ℚ) : ℚ := P3 (fun a => P3 (c a) y) x

theorem bicubic_swap (c : Nat → Nat → ℚ) (x y : ℚ) : bicubic c x y = P3 (fun b => P3 (fun a => c a b) x) y := by
  simp only [bicubic, P3]; ring

theorem cubic_P3 (k : Nat → ℚ) (i x : ℚ) : cubic (P3 k (i - 1)) (P3 k i) (P3 k (i + 1)) (P3 k (i + 2)) (x - i) = P3 k x := by
  simp only [cubic, P3]; ring

theorem poly_cubic (a b c d x i : ℚ) : poly a b c d x (i - 1) i (i + 1) (i + 2) = cubic a b c d (x - i) := by
  obtain ⟨t, rfl⟩ : ∃ t, x = i + t := ⟨x - i, by ring⟩
  have e1 : triprd (i - 1) i (i + 1) (i + 2) = -6 := by simp only [triprd]; ring
  have e2 : triprd i (i - 1) (i + 1) (i + 2) = 2 := by simp only [triprd]; ring
  have e3 : triprd (i + 1) (i - 1) i (i + 2) = -2 := by simp only [triprd]; ring
  have e4 : triprd (i + 2) (i - 1) i (i + 1) = 6 := by simp only [triprd]; ring
  simp only [poly, delta, e1, e2, e3, e4]
  simp only [triprd, cubic]
  ring

theorem four_some (f : Int → Option ℚ) (h : ℚ → ℚ → ℚ → ℚ → ℚ) (v : Int → ℚ) (hv : ∀ a, -1 ≤ a → a ≤ 2 → f a = some (v a)) :
    four f h = some (h (v (-1)) (v 0) (v 1) (v 2)) := by
  rw [four, hv _ (by omega) (by omega), hv _ (by omega) (by omega), hv _ (by omega) (by omega), hv _ (by omega) (by omega)]
  rfl

/-- The position of the block of four. -/
theorem block (l : Int) (hl : 4 ≤ l) (t : Int) : 2 ≤ min (max t 2) (l - 2) ∧ min (max t 2) (l - 2) + 2 ≤ l := by omega

/-- In all four cases the value is the cubic through the four cubics. -/
theorem kernel_cubic (ord : Int) (h0 : ord ≠ 0) (h1 : ord ≠ 1) (li lj : Int) (hi : 4 ≤ li) (hj : 4 ≤ lj) (F : Int → Int → ℚ) (x y : ℚ) :
    let i := min (max (trunc x) 2) (li - 2)
    let j := min (max (trunc y) 2) (lj - 2)
    let row := fun b => cubic (F (i - 1) b) (F i b) (F (i + 1) b) (F (i + 2) b) (x - i)
    kernel ord li lj F x y = some (cubic (row (j - 1)) (row j) (row (j + 1)) (row (j + 2)) (y - j)) := by
  obtain ⟨a1, a2⟩ := block li hi (trunc x)
  obtain ⟨b1, b2⟩ := block lj hj (trunc y)
  simp only [kernel, if_neg h0, if_neg h1]
  generalize min (max (trunc x) 2) (li - 2) = i at *
  generalize min (max (trunc y) 2) (lj - 2) = j at *
  have g : ∀ a b : Int, -1 ≤ a → a ≤ 2 → -1 ≤ b → b ≤ 2 → get li lj F (i + a) (j + b) = some (F (i + a) (j + b)) := by
    intro a b _ _ _ _
    rw [get, if_pos (by omega)]
  have col : ∀ a : Int, -1 ≤ a → a ≤ 2 → ∀ h, four (fun b => get li lj F (i + a) (j + b)) h =
      some (h (F (i + a) (j - 1)) (F (i + a) j) (F (i + a) (j + 1)) (F (i + a) (j + 2))) := by
    intro a ha hb h
    rw [four_some _ h _ (fun b h1 h2 => g a b ha hb h1 h2)]
    simp only [add_zero, Int.add_neg_eq_sub]
  have row : ∀ b : Int, -1 ≤ b → b ≤ 2 → ∀ h, four (fun a => get li lj F (i + a) (j + b)) h =
      some (h (F (i - 1) (j + b)) (F i (j + b)) (F (i + 1) (j + b)) (F (i + 2) (j + b))) := by
    intro b ha hb h
    rw [four_some _ h _ (fun a h1 h2 => g a b h1 h2 ha hb)]
    simp only [add_zero, Int.add_neg_eq_sub]
  split_ifs
  · rw [four_some _ _ _ (fun a h1 h2 => col a h1 h2 _)]
    simp only [add_zero, Int.add_neg_eq_sub, poly_cubic]
    congr 1; simp only [cubic]; ring
  · rw [four_some _ _ _ (fun a h1 h2 => col a h1 h2 _)]
    simp only [add_zero, Int.add_neg_eq_sub, poly_cubic]
    congr 1; simp only [cubic]; ring
  · rw [four_some _ _ _ (fun a h1 h2 => row a h1 h2 _)]
    simp only [add_zero, Int.add_neg_eq_sub, poly_cubic]
  · rw [four_some _ _ _ (fun a h1 h2 => row a h1 h2 _)]
    simp only [add_zero, Int.add_neg_eq_sub]

/-- C172.  A field which is a polynomial of degree 3 in each variable is reproduced, inside the grid and beyond. -/
theorem C172_bicubic (ord : Int) (h0 : ord ≠ 0) (h1 : ord ≠ 1) (li lj : Int) (hi : 4 ≤ li) (hj : 4 ≤ lj) (c : Nat → Nat → ℚ) (x y : ℚ) :
    kernel ord li lj (fun i j => bicubic c i j) x y = some (bicubic c x y) := by
  rw [kernel_cubic ord h0 h1 li lj hi hj]
  generalize min (max (trunc x) 2) (li - 2) = i
  generalize min (max (trunc y) 2) (lj - 2) = j
  have row : ∀ b : ℚ, cubic (bicubic c ((i : ℚ) - 1) b) (bicubic c i b) (bicubic c ((i : ℚ) + 1) b) (bicubic c ((i : ℚ) + 2) b) (x - i) =
      bicubic c x b := fun b => cubic_P3 (fun a => P3 (c a) b) i x
  push_cast
  simp only [row, bicubic_swap c x]
  rw [cubic_P3]

example : kernel 3 4 4 (fun i j => bicubic (fun a b => if a = 3 ∧ b = 3 then 1 else 0) i j) (1 / 2) 5 = some (125 / 8) := by
  rw [C172_bicubic 3 (by omega) (by omega) 4 4 (by omega) (by omega)]
  decide +kernel

theorem trunc_int (i : Int) : trunc i = i := by
  rw [trunc]; split_ifs
  · exact Int.floor_intCast i
  · exact Int.ceil_intCast i

theorem nint_int (i : Int) : nint i = i := by
  rw [nint]; split_ifs
  · exact Int.floor_eq_iff.2 ⟨by linarith, by linarith⟩
  · exact Int.ceil_eq_iff.2 ⟨by linarith, by linarith⟩

theorem cubic_at (z : Int → ℚ) (l : Int) (hl : 4 ≤ l) (i : Int) (h1 : 1 ≤ i) (h2 : i ≤ l) :
    let p := min (max i 2) (l - 2)
    cubic (z (p - 1)) (z p) (z (p + 1)) (z (p + 2)) ((i : ℚ) - p) = z i := by
  intro p
  have hp : i = p - 1 ∨ i = p ∨ i = p + 1 ∨ i = p + 2 := by omega
  clear_value p
  rcases hp with rfl | rfl | rfl | rfl
  · push_cast; simp only [cubic]; ring
  · simp only [cubic]; ring
  · push_cast; simp only [cubic]; ring
  · push_cast; simp only [cubic]; ring

/-- C172.  At a grid point the value is that of the field, for each of the orders. -/
theorem C172_grid (ord : Int) (li lj : Int) (hi : 4 ≤ li) (hj : 4 ≤ lj) (F : Int → Int → ℚ) (i j : Int) (h1 : 1 ≤ i ∧ i ≤ li)
    (h2 : 1 ≤ j ∧ j ≤ lj) : kernel ord li lj F i j = some (F i j) := by
  by_cases o0 : ord = 0
  · simp only [kernel, if_pos o0, nint_int]
    rw [min_eq_left h1.2, min_eq_left h2.2, max_eq_right h1.1, max_eq_right h2.1, get, if_pos ⟨h1.1, h1.2, h2.1, h2.2⟩]
  · by_cases o1 : ord = 1
    · subst o1
      have e1 : max 1 (min i (li - 1)) = i ∨ (max 1 (min i (li - 1)) = i - 1 ∧ i = li) := by omega
      have e2 : max 1 (min j (lj - 1)) = j ∨ (max 1 (min j (lj - 1)) = j - 1 ∧ j = lj) := by omega
      have b1 : 1 ≤ max 1 (min i (li - 1)) ∧ max 1 (min i (li - 1)) + 1 ≤ li := by omega
      have b2 : 1 ≤ max 1 (min j (lj - 1)) ∧ max 1 (min j (lj - 1)) + 1 ≤ lj := by omega
      simp only [kernel, if_neg o0, if_true, trunc_int]
      generalize max 1 (min i (li - 1)) = p at *
      generalize max 1 (min j (lj - 1)) = q at *
      rw [get, if_pos (by omega), get, if_pos (by omega), get, if_pos (by omega), get, if_pos (by omega)]
      simp only [Option.bind_eq_bind, Option.bind_some, Option.pure_def, zlin]
      congr 1
      rcases e1 with rfl | ⟨rfl, _⟩ <;> rcases e2 with rfl | ⟨rfl, _⟩ <;> (push_cast; simp)
    · rw [kernel_cubic ord o0 o1 li lj hi hj]
      simp only [trunc_int]
      congr 1
      have := cubic_at (fun b => cubic (F (min (max i 2) (li - 2) - 1) b) (F (min (max i 2) (li - 2)) b) (F (min (max i 2) (li - 2) + 1) b)
        (F (min (max i 2) (li - 2) + 2) b) ((i : ℚ) - (min (max i 2) (li - 2) : Int))) lj hj j h2.1 h2.2
      rw [this]
      exact cubic_at (fun a => F a j) li hi i h1.1 h1.2

example : kernel 3 4 5 (fun i j => 1 / (i + j)) (4 : Int) (5 : Int) = some (1 / 9) := by
  rw [C172_grid 3 4 5 (by omega) (by omega) _ 4 5 (by omega) (by omega)]
  norm_num

/-- C172.  The order 1 reproduces `a + b·x + c·y + d·x·y`. -/
theorem C172_bilinear (li lj : Int) (hi : 2 ≤ li) (hj : 2 ≤ lj) (a b c d x y : ℚ) :
    kernel 1 li lj (fun i j => a + b * i + c * j + d * i * j) x y = some (a + b * x + c * y + d * x * y) := by
  have b1 : 1 ≤ max 1 (min (trunc x) (li - 1)) ∧ max 1 (min (trunc x) (li - 1)) + 1 ≤ li := by omega
  have b2 : 1 ≤ max 1 (min (trunc y) (lj - 1)) ∧ max 1 (min (trunc y) (lj - 1)) + 1 ≤ lj := by omega
  simp only [kernel, if_neg (show (1 : Int) ≠ 0 by omega), if_true]
  generalize max 1 (min (trunc x) (li - 1)) = p at *
  generalize max 1 (min (trunc y) (lj - 1)) = q at *
  rw [get, if_pos (by omega), get, if_pos (by omega), get, if_pos (by omega), get, if_pos (by omega)]
  simp only [Option.bind_eq_bind, Option.bind_some, Option.pure_def, zlin]
  congr 1; push_cast; ring

example : kernel 1 2 2 (fun i j => 1 + 2 * i + 3 * j + 4 * i * j) (1 / 2) 3 = some 17 := by
  rw [C172_bilinear 2 2 (by omega) (by omega)]
  norm_num

theorem near (l : Int) (x : ℚ) (h1 : 1 ≤ x) (h2 : x ≤ l) : 1 ≤ nint x ∧ nint x ≤ l ∧ |x - nint x| ≤ 1 / 2 := by
  have f1 := Int.floor_le (x + 1 / 2)
  have f2 := Int.lt_floor_add_one (x + 1 / 2)
  rw [nint, if_pos (by linarith)]
  refine ⟨Int.le_floor.2 (by push_cast; linarith), ?_, ?_⟩
  · have : ((⌊x + 1 / 2⌋ : Int) : ℚ) < l + 1 := by linarith
    exact_mod_cast Int.lt_add_one_iff.1 (by exact_mod_cast this)
  · rw [abs_le]; constructor <;> linarith

/-- C172.  The order 0 gives the value of a point at most half a step away. -/
theorem C172_nearest (li lj : Int) (F : Int → Int → ℚ) (x y : ℚ) (hx : 1 ≤ x ∧ x ≤ li) (hy : 1 ≤ y ∧ y ≤ lj) :
    ∃ i j : Int, |x - i| ≤ 1 / 2 ∧ |y - j| ≤ 1 / 2 ∧ kernel 0 li lj F x y = some (F i j) := by
  obtain ⟨a1, a2, a3⟩ := near li x hx.1 hx.2
  obtain ⟨b1, b2, b3⟩ := near lj y hy.1 hy.2
  refine ⟨nint x, nint y, a3, b3, ?_⟩
  simp only [kernel, if_true]
  rw [min_eq_left a2, min_eq_left b2, max_eq_right a1, max_eq_right b1, get, if_pos ⟨a1, a2, b1, b2⟩]

example : (1 : ℚ) ≤ 5 / 2 ∧ (5 / 2 : ℚ) ≤ (3 : Int) ∧ kernel 0 3 3 (fun i j => i * 10 + j) (5 / 2) (7 / 4) = some 32 :=
  ⟨by norm_num, by norm_num, by decide +kernel⟩

/-- C172.  `SLL` gives the value of the field at the longitudes and latitudes of its points, whatever the order was, and a bicubic in
longitude and latitude everywhere. -/
theorem C172_sll (common : Int) (li lj : Int) (hi : 4 ≤ li) (hj : 4 ≤ lj) (xla0 xlo0 dlat dlon : ℚ) (h1 : dlat ≠ 0) (h2 : dlon ≠ 0) :
    (∀ F : Int → Int → ℚ, ∀ i j : Int, 1 ≤ i ∧ i ≤ li → 1 ≤ j ∧ j ≤ lj →
      (sll common (xlo0 + (i - 1) * dlon) (90 - (xla0 + (j - 1) * dlat)) li lj F xla0 xlo0 dlat dlon).1 = some (F i j)) ∧
    ∀ (c : Nat → Nat → ℚ) (lam lat : ℚ),
      (sll common lam (90 - lat) li lj (fun i j => bicubic c i j) xla0 xlo0 dlat dlon).1 =
        some (bicubic c (1 + (lam - xlo0) / dlon) (1 + (lat - xla0) / dlat)) := by
  refine ⟨fun F i j hi' hj' => ?_, fun c lam lat => ?_⟩
  · have e1 : 1 + (xlo0 + ((i : ℚ) - 1) * dlon - xlo0) / dlon = i := by field_simp; ring
    have e2 : 1 + (90 - (90 - (xla0 + ((j : ℚ) - 1) * dlat)) - xla0) / dlat = j := by field_simp; ring
    simp only [sll, e1, e2]
    exact C172_grid 3 li lj hi hj F i j hi' hj'
  · have e : 90 - (90 - lat) - xla0 = lat - xla0 := by ring
    simp only [sll, e]
    exact C172_bicubic 3 (by omega) (by omega) li lj hi hj c _ _

example : (sll 0 (10 + (4 - 1) * 2) (90 - (-20 + (1 - 1) * 5)) 4 4 (fun i j => 1 / (i + 3 * j)) (-20) 10 5 2).1 = some (1 / 7) := by
  decide +kernel

/-- C172.  The same for `SPS`. -/
theorem C172_sps (common : Int) (li lj : Int) (hi : 4 ≤ li) (hj : 4 ≤ lj) (pi pj : ℚ) :
    (∀ F : Int → Int → ℚ, ∀ i j : Int, 1 ≤ i ∧ i ≤ li → 1 ≤ j ∧ j ≤ lj → (sps common (i - pi) (j - pj) pi pj li lj F).1 = some (F i j)) ∧
    ∀ (c : Nat → Nat → ℚ) (x y : ℚ), (sps common x y pi pj li lj (fun i j => bicubic c i j)).1 = some (bicubic c (x + pi) (y + pj)) := by
  refine ⟨fun F i j hi' hj' => ?_, fun c x y => ?_⟩
  · simp only [sps, sub_add_cancel]
    exact C172_grid 3 li lj hi hj F i j hi' hj'
  · exact C172_bicubic 3 (by omega) (by omega) li lj hi hj c _ _

example : (sps 1 (3 - 7 / 2) (4 - 2) (7 / 2) 2 4 4 (fun i j => 1 / (i + 3 * j))).1 = some (1 / 15) := by decide +kernel

/-- C172.  The order which the caller puts into the common block has no effect on `SLL` and `SPS`, which set it to 3.  The entry `SLC` does
not set it: as long as neither of the other two was called it is 0, and the value is that of the nearest point. -/
theorem C172_order_witness : (∀ m n lambda phi li lj F a b c d, sll m lambda phi li lj F a b c d = sll n lambda phi li lj F a b c d) ∧
    (∀ m n x y p q li lj F, sps m x y p q li lj F = sps n x y p q li lj F) ∧
    (slc 0 (5 / 4) 2 0 0 4 4 (fun i _ => i)).1 = some 1 ∧ (slc 3 (5 / 4) 2 0 0 4 4 (fun i _ => i)).1 = some (5 / 4) := by
  refine ⟨fun _ _ _ _ _ _ _ _ _ _ _ => rfl, fun _ _ _ _ _ _ _ _ _ => rfl, by decide +kernel, by decide +kernel⟩

/-- C172.  With fewer than four columns the sixteen points are not in the field. -/
theorem C172_small_witness : (sll 3 0 90 3 4 (fun _ _ => 0) 0 0 1 1).1 = none := by decide +kernel


end Verif.Sll
