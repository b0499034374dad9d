import Verif.Sglo
import Mathlib.Tactic
import Verif.Props.Idxes
import Verif.Props.Sll

namespace Verif.Sglo

open Verif.Idxes Verif.Sll

/-! # C173: interpolation on the sphere -/

/-- A field `G` on the rows and columns continued around the sphere: periodic along the circles; half a circle away on the other side of
a pole; on the other side of the equator of a field of the northern hemisphere the same or the opposite.  `F` is its part in the grid. -/
structure OnSphere (k : Kase) (sign : ℚ) (li lj : Int) (F G : Int → Int → ℚ) : Prop where
  per : ∀ i j, G (i + li) j = G i j
  north : ∀ i j, G i (1 - j) = G (i + li / 2) j
  south : k = .global → ∀ i j, G i (2 * lj + 1 - j) = G (i + li / 2) j
  equator : k = .north → ∀ i j, G i (2 * lj + 1 - j) = sign * G i j
  grid : ∀ i j, 1 ≤ i → i ≤ li → 1 ≤ j → j ≤ lj → F i j = G i j

theorem per_mul {k sign li lj F G} (h : OnSphere k sign li lj F G) (i j t : Int) : G (i + t * li) j = G i j := by
  induction t using Int.induction_on with
  | zero => simp
  | succ n ih => rw [← ih, ← h.per (i + n * li)]; congr 1; ring
  | pred n ih => rw [← ih, ← h.per (i + (-n - 1) * li)]; congr 1; ring

/-- Each of the sixteen values is that of the continued field. -/
theorem value {k sign li lj F G} (h : OnSphere k sign li lj F G) (hk : k ≠ .south) (hli : 4 ≤ li) (hlj : 4 ≤ lj) (i j : Int)
    (hi : 1 ≤ i ∧ i ≤ li) (hj : 0 ≤ j ∧ j ≤ 2 * lj - 2 ∧ (k = .global → j ≤ lj)) (ii jj : Int) (hii : 1 ≤ ii ∧ ii ≤ 4) (hjj : 1 ≤ jj ∧ jj ≤ 4) :
    ∃ v, get li lj F (idx i j li lj k ii jj) (jdx i j li lj k jj).natAbs = some v ∧
      (if jdx i j li lj k jj < 0 then sign * v else v) = G (i - 2 + ii) (j - 2 + jj) := by
  obtain ⟨c1, c2, c3, c4⟩ := C151_columns i j li lj k ii jj (by omega) (by omega) hi hii hjj
  obtain ⟨r, r1, r2⟩ := C151_rows i j li lj k jj hjj ⟨by omega, fun _ => hj.1⟩ ⟨hj.2.1, fun hn => hj.2.2 (by cases k <;> simp_all)⟩
  generalize idx i j li lj k ii jj = c at *
  generalize hr0 : jdx i j li lj k jj = r0 at *
  generalize hd : j - 2 + jj = d at *
  generalize i - 2 + ii = e at *
  refine ⟨F c r0.natAbs, by rw [Verif.Sll.get, if_pos (by omega)], ?_⟩
  rw [h.grid c r0.natAbs c1 c2 (by omega) (by omega)]
  rcases r with ⟨a, b, e1⟩ | ⟨a, b, e1⟩ | ⟨a, b, e1⟩ | ⟨a, b, e1⟩ | ⟨a, b, e1⟩
  · obtain ⟨t, ht⟩ := c4 (by rintro (p | p) <;> omega)
    rw [if_neg (by omega), show ((r0.natAbs : Nat) : Int) = d by omega, ht, per_mul h]
  · obtain ⟨t, ht⟩ := c3 (Or.inl ⟨a, hk⟩)
    rw [if_neg (by omega), show ((r0.natAbs : Nat) : Int) = 1 - d by omega, ht, per_mul h, ← h.north e (1 - d)]
    congr 1; omega
  · exact absurd b hk
  · have kg : k = .global := by cases k <;> simp_all
    obtain ⟨t, ht⟩ := c3 (Or.inr ⟨a, b⟩)
    rw [if_neg (by omega), show ((r0.natAbs : Nat) : Int) = 2 * lj + 1 - d by omega, ht, per_mul h, ← h.south kg e (2 * lj + 1 - d)]
    congr 1; omega
  · obtain ⟨t, ht⟩ := c4 (by rintro (⟨p, _⟩ | ⟨_, p⟩); · omega
                             · exact p b)
    rw [if_pos (by omega), show ((r0.natAbs : Nat) : Int) = 2 * lj + 1 - d by omega, ht, per_mul h, ← h.equator b e (2 * lj + 1 - d)]
    congr 1; omega

theorem nint_two (d : ℚ) (h : 0 ≤ d ∧ d < 1) : nint (d + 2) = 2 + ⌊d + 1 / 2⌋ ∧ 0 ≤ ⌊d + 1 / 2⌋ ∧ ⌊d + 1 / 2⌋ ≤ 1 := by
  refine ⟨?_, Int.floor_nonneg.2 (by linarith), ?_⟩
  · rw [nint, if_pos (by linarith), show d + 2 + 1 / 2 = d + 1 / 2 + (2 : Int) by push_cast; ring, Int.floor_add_intCast]; ring
  · have : ⌊d + 1 / 2⌋ < 2 := Int.floor_lt.2 (by push_cast; linarith)
    omega

/-- The interpolation in the continued field. -/
theorem interp_eq {k sign li lj F G} (h : OnSphere k sign li lj F G) (hk : k ≠ .south) (hli : 4 ≤ li) (hlj : 4 ≤ lj) (i j : Int)
    (hi : 1 ≤ i ∧ i ≤ li) (hj : 0 ≤ j ∧ j ≤ 2 * lj - 2 ∧ (k = .global → j ≤ lj)) (dx dy : ℚ) (hx : 0 ≤ dx ∧ dx < 1) (hy : 0 ≤ dy ∧ dy < 1)
    (ord : Int) :
    interp k sign ord F li lj i j dx dy = some (
      if ord = 0 then G (i + ⌊dx + 1 / 2⌋) (j + ⌊dy + 1 / 2⌋)
      else if ord = 1 then zlin (zlin (G i j) (G (i + 1) j) dx) (zlin (G i (j + 1)) (G (i + 1) (j + 1)) dx) dy
      else
        let col := fun a => cubic (G a (j - 1)) (G a j) (G a (j + 1)) (G a (j + 2)) dy
        cubic (col (i - 1)) (col i) (col (i + 1)) (col (i + 2)) dx) := by
  have V := fun ii jj a b => value h hk hli hlj i j hi hj ii jj a b
  by_cases o0 : ord = 0
  · obtain ⟨x1, x2, x3⟩ := nint_two dx hx
    obtain ⟨y1, y2, y3⟩ := nint_two dy hy
    simp only [interp, if_pos o0, x1, y1]
    obtain ⟨v, v1, v2⟩ := V (2 + ⌊dx + 1 / 2⌋) (2 + ⌊dy + 1 / 2⌋) (by omega) (by omega)
    rw [v1, Option.map_some, v2]
    congr 2 <;> ring
  · by_cases o1 : ord = 1
    · simp only [interp, if_neg o0, if_pos o1]
      obtain ⟨a, a1, a2⟩ := V 2 2 (by omega) (by omega)
      obtain ⟨b, b1, b2⟩ := V 3 2 (by omega) (by omega)
      obtain ⟨c, c1, c2⟩ := V 2 3 (by omega) (by omega)
      obtain ⟨d, d1, d2⟩ := V 3 3 (by omega) (by omega)
      rw [a1, b1, c1, d1]
      simp only [Option.bind_eq_bind, Option.bind_some, Option.pure_def]
      rw [show i - 2 + 2 = i by ring, show j - 2 + 2 = j by ring] at a2
      rw [show i - 2 + 3 = i + 1 by ring, show j - 2 + 2 = j by ring] at b2
      rw [show i - 2 + 2 = i by ring, show j - 2 + 3 = j + 1 by ring] at c2
      rw [show i - 2 + 3 = i + 1 by ring, show j - 2 + 3 = j + 1 by ring] at d2
      rw [← a2, ← b2, ← c2, ← d2]
      congr 2
      · split_ifs <;> simp only [zlin]; ring
      · split_ifs <;> simp only [zlin]; ring
    · simp only [interp, if_neg o0, if_neg o1]
      have g : ∀ a b : Int, -1 ≤ a → a ≤ 2 → -1 ≤ b → b ≤ 2 →
          (get li lj F (idx i j li lj k (a + 2) (b + 2)) (jdx i j li lj k (b + 2)).natAbs).map
            (fun v => if jdx i j li lj k (b + 2) < 0 then sign * v else v) = some (G (i + a) (j + b)) := by
        intro a b _ _ _ _
        obtain ⟨v, v1, v2⟩ := V (a + 2) (b + 2) (by omega) (by omega)
        rw [v1, Option.map_some, v2]
        congr 2 <;> ring
      rw [four_some _ _ _ (fun a h1 h2 => four_some _ _ _ (fun b h3 h4 => g a b h1 h2 h3 h4))]
      simp only [add_zero, Int.add_neg_eq_sub]

theorem trunc_pos (x : ℚ) (h : 0 ≤ x) : trunc x = ⌊x⌋ := by rw [trunc, if_pos h]

/-- C173.  `SGLO`, `SSNH` and `SANH` between the poles, and for the last two not within one and a half steps of the south pole: the cubic
interpolation in the field continued around the sphere, at the column `x` and the row `y` of the place; a linear one, or the nearest
point, for the orders 1 and 0. -/
theorem C173_sphere {k sign li lj F G} (h : OnSphere k sign li lj F G) (hk : k ≠ .south) (hli : 4 ≤ li) (hlj : 4 ≤ lj)
    (hsize : li * lj < 70000) (lambda phi : ℚ) (h1 : -180 ≤ lambda) (h2 : lambda < 360) (h3 : 1 / 10 ^ 8 < phi) (h4 : phi < 180 - 1 / 10 ^ 8)
    (ord : Int) (x y : ℚ) (hx : x = 1 + (if lambda < 0 then lambda + 360 else lambda) * li / 360)
    (hy : y = 1 / 2 + phi * (if k = .global then (lj : ℚ) else 2 * lj) / 180) (hn : k = .north → y < 2 * lj - 1) :
    sglo k sign ord lambda phi F li lj = some (
      let i := ⌊x⌋
      let j := ⌊y⌋
      if ord = 0 then G (i + ⌊Int.fract x + 1 / 2⌋) (j + ⌊Int.fract y + 1 / 2⌋)
      else if ord = 1 then zlin (zlin (G i j) (G (i + 1) j) (x - i)) (zlin (G i (j + 1)) (G (i + 1) (j + 1)) (x - i)) (y - j)
      else
        let col := fun a => cubic (G a (j - 1)) (G a j) (G a (j + 1)) (G a (j + 2)) (y - j)
        cubic (col (i - 1)) (col i) (col (i + 1)) (col (i + 2)) (x - i)) := by
  have p8 : (0 : ℚ) < 1 / 10 ^ 8 := by norm_num
  have li0 : (0 : ℚ) < li := by exact_mod_cast (by omega : 0 < li)
  have lj0 : (0 : ℚ) < lj := by exact_mod_cast (by omega : 0 < lj)
  have ex : 1 + (if lambda < 0 then 360 + lambda else lambda) / (360 / (li : ℚ)) = x := by
    rw [hx]; split_ifs <;> field_simp <;> ring
  have ey : 1 + (phi - (if k ≠ .global then 0.5 * (90 / (lj : ℚ)) else 90 / lj)) / (2 * (if k ≠ .global then 0.5 * (90 / (lj : ℚ)) else 90 / lj)) = y := by
    rw [hy]
    by_cases kg : k = .global
    · rw [if_neg (not_not.2 kg), if_pos kg]; field_simp; ring
    · rw [if_pos kg, if_neg kg]; field_simp; ring
  have bx : 1 ≤ x ∧ x < li + 1 := by
    have l0 : 0 ≤ (if lambda < 0 then lambda + 360 else lambda) ∧ (if lambda < 0 then lambda + 360 else lambda) < 360 := by
      split_ifs <;> constructor <;> linarith
    generalize (if lambda < 0 then lambda + 360 else lambda) = m at *
    rw [hx]
    constructor
    · have : 0 ≤ m * li / 360 := div_nonneg (mul_nonneg l0.1 li0.le) (by norm_num)
      linarith
    · have : m * li / 360 < li := by rw [div_lt_iff₀ (by norm_num)]; nlinarith [l0.2]
      linarith
  have by' : 0 ≤ y ∧ (k = .global → y < lj + 1) := by
    rw [hy]
    constructor
    · have : (0 : ℚ) ≤ if k = .global then (lj : ℚ) else 2 * lj := by split_ifs <;> linarith
      have : 0 ≤ phi * (if k = .global then (lj : ℚ) else 2 * lj) / 180 := div_nonneg (mul_nonneg (by linarith) this) (by norm_num)
      linarith
    · intro kg
      rw [if_pos kg]
      have : phi * (lj : ℚ) / 180 < lj := by rw [div_lt_iff₀ (by norm_num)]; nlinarith
      linarith
  have fi : 1 ≤ ⌊x⌋ ∧ ⌊x⌋ ≤ li := by
    refine ⟨Int.le_floor.2 (by exact_mod_cast bx.1), Int.lt_add_one_iff.1 (Int.floor_lt.2 (by push_cast; exact bx.2))⟩
  have fj : 0 ≤ ⌊y⌋ ∧ ⌊y⌋ ≤ 2 * lj - 2 ∧ (k = .global → ⌊y⌋ ≤ lj) := by
    have g : k = .global → ⌊y⌋ ≤ lj := fun kg => Int.lt_add_one_iff.1 (Int.floor_lt.2 (by push_cast; exact by'.2 kg))
    refine ⟨Int.floor_nonneg.2 by'.1, ?_, g⟩
    rcases k with _ | _ | _
    · have := g rfl; omega
    · have : ⌊y⌋ < 2 * lj - 1 := Int.floor_lt.2 (by push_cast; exact hn rfl)
      omega
    · exact absurd rfl hk
  rw [sglo, if_neg (not_not.2 ⟨by linarith, by linarith, h1, h2, hli, hlj, hsize⟩), if_neg (not_not.2 ⟨h3, h4⟩)]
  simp only [ex, ey]
  rw [trunc_pos x (by linarith [bx.1]), trunc_pos y by'.1, show x - (⌊x⌋ : ℚ) = Int.fract x from rfl, show y - (⌊y⌋ : ℚ) = Int.fract y from rfl,
    interp_eq h hk hli hlj _ _ fi fj _ _ ⟨Int.fract_nonneg x, Int.fract_lt_one x⟩ ⟨Int.fract_nonneg y, Int.fract_lt_one y⟩]

/-- C173.  At the points of the grid the value of the field is given, for all orders. -/
theorem C173_grid (sign : ℚ) {li lj F G} (h : OnSphere .global sign li lj F G) (hli : 4 ≤ li) (hlj : 4 ≤ lj)
    (hsize : li * lj < 70000) (ord : Int) (i j : Int) (hi : 1 ≤ i ∧ i ≤ li) (hj : 1 ≤ j ∧ j ≤ lj) :
    sglo .global sign ord ((i - 1) * 360 / li) ((j - 1 / 2) * 180 / lj) F li lj = some (F i j) := by
  have li0 : (0 : ℚ) < li := by exact_mod_cast (by omega : 0 < li)
  have lj0 : (0 : ℚ) < lj := by exact_mod_cast (by omega : 0 < lj)
  have i1 : (1 : ℚ) ≤ i ∧ (i : ℚ) ≤ li := ⟨by exact_mod_cast hi.1, by exact_mod_cast hi.2⟩
  have j1 : (1 : ℚ) ≤ j ∧ (j : ℚ) ≤ lj := ⟨by exact_mod_cast hj.1, by exact_mod_cast hj.2⟩
  have lb : (lj : ℚ) ≤ 17500 := by
    have : lj ≤ 17500 := by nlinarith
    exact_mod_cast this
  have l0 : 0 ≤ ((i : ℚ) - 1) * 360 / li := div_nonneg (by linarith) li0.le
  have ex : (i : ℚ) = 1 + (if ((i : ℚ) - 1) * 360 / li < 0 then ((i : ℚ) - 1) * 360 / li + 360 else ((i : ℚ) - 1) * 360 / li) * li / 360 := by
    rw [if_neg (not_lt.2 l0)]; field_simp; ring
  have ey : (j : ℚ) = 1 / 2 + ((j : ℚ) - 1 / 2) * 180 / lj * (if Kase.global = .global then (lj : ℚ) else 2 * lj) / 180 := by
    rw [if_pos rfl]; field_simp; ring
  rw [C173_sphere h (by decide) hli hlj hsize _ _ (by linarith) (by rw [div_lt_iff₀ li0]; nlinarith)
    (by rw [lt_div_iff₀ lj0]; nlinarith) (by rw [div_lt_iff₀ lj0]; nlinarith) ord i j ex ey (by intro h; cases h)]
  simp only [Int.floor_intCast, Int.fract_intCast, sub_self]
  rw [h.grid i j hi.1 hi.2 hj.1 hj.2]
  have z : ⌊(0 : ℚ) + 1 / 2⌋ = 0 := by norm_num
  split_ifs
  · rw [z, add_zero, add_zero]
  · simp [zlin]
  · simp [cubic]

/-- C173.  A longitude from -180 to 0 and the one 360 degrees further east give the same. -/
theorem C173_west (k : Kase) (sign : ℚ) (ord : Int) (lambda phi : ℚ) (F : Int → Int → ℚ) (li lj : Int) (h1 : -180 ≤ lambda) (h2 : lambda < 0) :
    sglo k sign ord lambda phi F li lj = sglo k sign ord (lambda + 360) phi F li lj := by
  by_cases c : 0 ≤ phi ∧ phi ≤ 180 ∧ -180 ≤ lambda ∧ lambda < 360 ∧ 4 ≤ li ∧ 4 ≤ lj ∧ li * lj < 70000
  · have c' : 0 ≤ phi ∧ phi ≤ 180 ∧ -180 ≤ lambda + 360 ∧ lambda + 360 < 360 ∧ 4 ≤ li ∧ 4 ≤ lj ∧ li * lj < 70000 :=
      ⟨c.1, c.2.1, by linarith, by linarith, c.2.2.2.2⟩
    rw [sglo, sglo, if_neg (not_not.2 c), if_neg (not_not.2 c'), if_pos h2, if_neg (show ¬ lambda + 360 < 0 by linarith), add_comm lambda 360]
  · have c' : ¬ (0 ≤ phi ∧ phi ≤ 180 ∧ -180 ≤ lambda + 360 ∧ lambda + 360 < 360 ∧ 4 ≤ li ∧ 4 ≤ lj ∧ li * lj < 70000) :=
      fun d => c ⟨d.1, d.2.1, h1, by linarith, d.2.2.2.2⟩
    rw [sglo, sglo, if_pos c, if_pos c']

theorem sumRow_eq (li lj : Int) (F : Int → Int → ℚ) (j : Int) (hj : 1 ≤ j ∧ j ≤ lj) (n : Nat) (hn : (n : Int) ≤ li) :
    sumRow li lj F j n = some (∑ i ∈ Finset.range n, F (i + 1) j) := by
  induction n with
  | zero => rfl
  | succ n ih =>
    rw [sumRow, ih (by push_cast at hn; omega), Finset.sum_range_succ, Verif.Sll.get, if_pos (by push_cast at hn; omega)]
    rfl

/-- C173.  At a pole the mean `a` of a field is given whose means over the two circles next to the pole grow from there as
`a + b·d²` with the distance `d` to the pole (in steps). -/
theorem C173_pole (k : Kase) (sign : ℚ) (ord : Int) (lambda phi : ℚ) (F : Int → Int → ℚ) (li lj : Int) (hli : 4 ≤ li) (hlj : 4 ≤ lj)
    (hsize : li * lj < 70000) (h1 : -180 ≤ lambda) (h2 : lambda < 360) (a b : ℚ) (n : Nat) (hn : (n : Int) = li) :
    (phi = 0 → (∑ i ∈ Finset.range n, F (i + 1) 1) / n = a + b * (1 / 2) ^ 2 → (∑ i ∈ Finset.range n, F (i + 1) 2) / n = a + b * (3 / 2) ^ 2 →
      sglo k sign ord lambda phi F li lj = some a) ∧
    (phi = 180 → k = .global → (∑ i ∈ Finset.range n, F (i + 1) lj) / n = a + b * (1 / 2) ^ 2 →
      (∑ i ∈ Finset.range n, F (i + 1) (lj - 1)) / n = a + b * (3 / 2) ^ 2 → sglo k sign ord lambda phi F li lj = some a) ∧
    (phi = 180 → k = .north → (∑ i ∈ Finset.range n, F (i + 1) 1) / n = a + b * (1 / 2) ^ 2 →
      (∑ i ∈ Finset.range n, F (i + 1) 2) / n = a + b * (3 / 2) ^ 2 → sglo k sign ord lambda phi F li lj = some (sign * a)) := by
  have n0 : (n : ℚ) ≠ 0 := by
    have : n ≠ 0 := by omega
    exact_mod_cast this
  have ln : (li : ℚ) = n := by rw [← hn]; rfl
  have tn : li.toNat = n := by omega
  have fin : ∀ s t : ℚ, s / n = a + b * (1 / 2) ^ 2 → t / n = a + b * (3 / 2) ^ 2 → (s * 1.125 - t * 0.125) / n = a := by
    intro s t hs ht
    rw [div_eq_iff n0] at *
    rw [hs, ht]; ring
  refine ⟨?_, ?_, ?_⟩
  · rintro rfl ha hb
    rw [sglo, if_neg (not_not.2 ⟨by norm_num, by norm_num, h1, h2, hli, hlj, hsize⟩), if_pos (by norm_num)]
    simp only [pole, show ¬ ((0 : ℚ) > 90) by norm_num, decide_false, Bool.false_and, Bool.false_eq_true, if_false, and_false, tn,
      sumRow_eq li lj F 1 (by omega) n (by omega), sumRow_eq li lj F 2 (by omega) n (by omega), Option.bind_eq_bind, Option.bind_some,
      Option.pure_def, ln, fin _ _ ha hb]
  · rintro rfl rfl ha hb
    rw [sglo, if_neg (not_not.2 ⟨by norm_num, by norm_num, h1, h2, hli, hlj, hsize⟩), if_pos (by norm_num)]
    simp only [pole, show ((180 : ℚ) > 90) by norm_num, decide_true, Bool.true_and, if_true, and_true, tn,
      sumRow_eq li lj F lj (by omega) n (by omega), sumRow_eq li lj F (lj - 1) (by omega) n (by omega), Option.bind_eq_bind, Option.bind_some,
      Option.pure_def, ln, fin _ _ ha hb]
    rfl
  · rintro rfl rfl ha hb
    rw [sglo, if_neg (not_not.2 ⟨by norm_num, by norm_num, h1, h2, hli, hlj, hsize⟩), if_pos (by norm_num)]
    simp only [pole, show ((180 : ℚ) > 90) by norm_num, show ¬ (Kase.north = Kase.global) by decide, decide_false, Bool.and_false,
      Bool.false_eq_true, if_false, and_true, if_true, tn,
      sumRow_eq li lj F 1 (by omega) n (by omega), sumRow_eq li lj F 2 (by omega) n (by omega), Option.bind_eq_bind, Option.bind_some,
      Option.pure_def, ln, fin _ _ ha hb]

/-- A field on the sphere with 4 times 4 points. -/
def example44 (i j : Int) : ℚ := (if (j - 1) % 8 < 4 then ((j - 1) % 8 : Int) else (7 - (j - 1) % 8 : Int)) + 10 * (i % 2 : Int)

theorem example44_sphere : OnSphere .global 1 4 4 example44 example44 where
  per i j := by simp only [example44]; rw [show (i + 4) % 2 = i % 2 by omega]
  north i j := by
    simp only [example44]
    rw [show (i + 4 / 2) % 2 = i % 2 by omega]
    congr 1
    split_ifs <;> first | omega | (congr 1; omega)
  south _ i j := by
    simp only [example44]
    rw [show (i + 4 / 2) % 2 = i % 2 by omega]
    congr 1
    split_ifs <;> first | omega | (congr 1; omega)
  equator h := by cases h
  grid _ _ _ _ _ _ := rfl

theorem example44_north : OnSphere .north 1 4 4 example44 example44 where
  per := example44_sphere.per
  north := example44_sphere.north
  south h := by cases h
  equator _ i j := by
    rw [example44_sphere.south rfl, one_mul]
    simp only [example44]
    rw [show (i + 4 / 2) % 2 = i % 2 by omega]
  grid _ _ _ _ _ _ := rfl

example : sglo .north 1 3 (-90) (45 / 4 * 9) example44 4 4 = some (example44 4 5) ∧ (1 / 2 + 45 / 4 * 9 * (2 * 4) / 180 : ℚ) = 5 := by
  decide +kernel

example : sglo .global 1 3 (-90) (45 / 2) example44 4 4 = some 0 ∧ example44 4 1 = 0 ∧ example44 4 2 = 1 := by decide +kernel

example : sglo .global 1 3 ((4 - 1) * 360 / 4) ((2 - 1 / 2) * 180 / 4) example44 4 4 = some (example44 4 2) :=
  C173_grid 1 example44_sphere (by omega) (by omega) (by omega) 3 4 2 (by omega) (by omega)

example : sglo .north (-1) 3 0 180 (fun i j => 3 + (j - 1 / 2) ^ 2 + (if i ≤ 2 then 1 else -1)) 4 4 = some (-3) := by decide +kernel

theorem four_none (f : Int → Option ℚ) (h : ℚ → ℚ → ℚ → ℚ → ℚ) (a : Int) (ha : a = -1 ∨ a = 0 ∨ a = 1 ∨ a = 2) (hf : f a = none) :
    four f h = none := by
  rw [four]
  rcases ha with rfl | rfl | rfl | rfl
  · rw [hf]; rfl
  · rw [hf]; cases f (-1) <;> rfl
  · rw [hf]; cases f (-1) <;> cases f 0 <;> rfl
  · rw [hf]; cases f (-1) <;> cases f 0 <;> cases f 1 <;> rfl

/-- C173.  Near the south pole the entries for the northern hemisphere read a row 0, which is not in the field, for each field and each
place within one and a half steps of the pole, though not at the pole. -/
theorem C173_south_witness (sign : ℚ) (ord : Int) (h0 : ord ≠ 0) (h1 : ord ≠ 1) (lambda phi : ℚ) (F : Int → Int → ℚ) (li lj : Int)
    (hlj : 4 ≤ lj) (hphi : 180 - 135 / lj ≤ phi) (h3 : 1 / 10 ^ 8 < phi) (h4 : phi < 180 - 1 / 10 ^ 8) :
    sglo .north sign ord lambda phi F li lj = none := by
  have lj0 : (0 : ℚ) < lj := by exact_mod_cast (by omega : 0 < lj)
  rw [sglo]
  by_cases c : 0 ≤ phi ∧ phi ≤ 180 ∧ -180 ≤ lambda ∧ lambda < 360 ∧ 4 ≤ li ∧ 4 ≤ lj ∧ li * lj < 70000
  swap
  · rw [if_pos c]
  rw [if_neg (not_not.2 c), if_neg (not_not.2 ⟨h3, h4⟩)]
  have ey : 1 + (phi - 0.5 * (90 / (lj : ℚ))) / (2 * (0.5 * (90 / (lj : ℚ)))) = 1 / 2 + phi * lj / 90 := by field_simp; ring
  have b1 : 2 * (lj : ℚ) - 1 ≤ 1 / 2 + phi * lj / 90 := by
    have : (180 - 135 / (lj : ℚ)) * lj ≤ phi * lj := mul_le_mul_of_nonneg_right hphi lj0.le
    rw [sub_mul, div_mul_cancel₀ _ lj0.ne'] at this
    linarith
  have b2 : 1 / 2 + phi * lj / 90 < 2 * (lj : ℚ) + 1 := by
    have p8 : (0 : ℚ) < 1 / 10 ^ 8 := by norm_num
    have : phi * lj < 180 * lj := mul_lt_mul_of_pos_right (by linarith) lj0
    linarith
  have k1 : (Kase.north ≠ Kase.global) = True := by decide
  simp only [k1, if_true, ey]
  generalize hy : (1 : ℚ) / 2 + phi * lj / 90 = y at *
  have l4 : (4 : ℚ) ≤ lj := by exact_mod_cast hlj
  rw [trunc_pos y (by linarith)]
  have f1 : 2 * lj - 1 ≤ ⌊y⌋ := Int.le_floor.2 (by push_cast; exact b1)
  have f2 : ⌊y⌋ < 2 * lj + 1 := Int.floor_lt.2 (by push_cast; exact b2)
  generalize ⌊y⌋ = j at *
  generalize trunc _ = i
  simp only [interp, if_neg h0, if_neg h1]
  refine four_none _ _ (-1) (Or.inl rfl) (four_none _ _ (2 * lj + 1 - j) (by omega) ?_)
  have hj : jdx i j li lj .north (2 * lj + 1 - j + 2) = 0 := by
    have hr : ¬ range i j li lj = true := by simp [range]; omega
    simp only [jdx, hr, Bool.false_eq_true, if_false]
    rw [show j - 2 + (2 * lj + 1 - j + 2) = 2 * lj + 1 by ring, if_neg (show ¬ 2 * lj + 1 < 1 by omega),
      if_pos (show lj < 2 * lj + 1 by omega), sub_self]
    rfl
  rw [hj, Verif.Sll.get, if_neg (by simp)]
  rfl

example : sglo .north 1 3 0 179 (fun _ _ => 1) 4 4 = none ∧ sglo .north 1 3 0 150 (fun _ _ => 1) 4 4 = none ∧
    sglo .north 1 3 0 146 (fun _ _ => 1) 4 4 = some 1 ∧ sglo .north 1 3 0 180 (fun _ _ => 1) 4 4 = some 1 := by decide +kernel


end Verif.Sglo
