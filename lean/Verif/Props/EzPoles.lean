import Mathlib.Algebra.BigOperators.Intervals
import Mathlib.Algebra.Order.BigOperators.Group.Finset
import Verif.Props.EzZones

/-! # Corrections near the poles and at the poles -/

namespace Verif.EzZones
open Verif.EzInterp

/-! ### The value at the pole -/

theorem sumTo_eq (f : ℤ → ℚ) (n : ℕ) : sumTo f n = ∑ k ∈ Finset.range n, f (k + 1) := by
  induction n with
  | zero => rfl
  | succ n ih => rw [sumTo, Finset.sum_range_succ, ih]

theorem sumTo_bounds (f : ℤ → ℚ) (lo hi : ℚ) (n : ℕ)
    (h : ∀ i : ℤ, 1 ≤ i → i ≤ n → lo ≤ f i ∧ f i ≤ hi) :
    n * lo ≤ sumTo f n ∧ sumTo f n ≤ n * hi := by
  induction n with
  | zero => simp [sumTo]
  | succ n ih =>
    obtain ⟨a, b⟩ := ih fun i h1 h2 => h i h1 (by push_cast; omega)
    obtain ⟨c, d⟩ := h (n + 1) (by omega) (by push_cast; omega)
    rw [sumTo]; push_cast
    constructor <;> linarith

/-- **C113** (value of the pole).  Unless the grid is of type Z over E, the value of a pole is the
arithmetic mean of the row, and lies within any bounds of the row. -/
theorem C113_mean (s : Src) (z : ℤ → ℚ) (hni : 1 ≤ s.ni) (ht : ¬ (s.typ = 'Z' ∧ s.ref = 'E')) :
    ∃ p, poleval s z = some p ∧ p = (∑ k ∈ Finset.range s.ni.toNat, z (k + 1)) / s.ni ∧
      ∀ lo hi, (∀ i, 1 ≤ i → i ≤ s.ni → lo ≤ z i ∧ z i ≤ hi) → lo ≤ p ∧ p ≤ hi := by
  have hn : (0 : ℚ) < s.ni := by exact_mod_cast (by omega : (0 : ℤ) < s.ni)
  refine ⟨sumTo z s.ni.toNat / s.ni, by simp only [poleval, if_neg ht, if_neg (show ¬ s.ni = 0 by omega)],
    by rw [sumTo_eq], ?_⟩
  intro lo hi h
  have hb := sumTo_bounds z lo hi s.ni.toNat fun i h1 h2 => h i h1 (by omega)
  have e : ((s.ni.toNat : ℕ) : ℚ) = s.ni := by
    have : ((s.ni.toNat : ℕ) : ℤ) = s.ni := by omega
    exact_mod_cast this
  rw [e] at hb
  rw [le_div_iff₀ hn, div_le_iff₀ hn]
  constructor <;> linarith [hb.1, hb.2]

example : poleval { typ := 'A', ni := 4, nj := 3, j1 := 1, j2 := 3, ext := 2, ypn := 7 / 2, yps := 1 / 2 }
    (fun i => i * i) = some (15 / 2) := by decide +kernel

/-- For type Z over E with increasing longitudes: a weighted mean of the columns but the last. -/
theorem C113_weighted (s : Src) (z : ℤ → ℚ) (hni : 2 ≤ s.ni) (ht : s.typ = 'Z' ∧ s.ref = 'E')
    (hx : ∀ i, 1 ≤ i → i < s.ni → s.ax i < s.ax (i + 1)) :
    ∃ p, poleval s z = some p ∧
      ∀ lo hi, (∀ i, 1 ≤ i → i < s.ni → lo ≤ z i ∧ z i ≤ hi) → lo ≤ p ∧ p ≤ hi := by
  have key : ∀ n : ℕ, (n : ℤ) < s.ni → s.ax 1 ≤ s.ax (n + 1) ∧ (1 ≤ n → s.ax 1 < s.ax (n + 1)) ∧
      ∀ lo hi, (∀ i, 1 ≤ i → i < s.ni → lo ≤ z i ∧ z i ≤ hi) →
        lo * (s.ax (n + 1) - s.ax 1) ≤ sumTo (fun i => z i * (s.ax (i + 1) - s.ax i)) n ∧
        sumTo (fun i => z i * (s.ax (i + 1) - s.ax i)) n ≤ hi * (s.ax (n + 1) - s.ax 1) := by
    intro n
    induction n with
    | zero => intro _; simp [sumTo]
    | succ n ih =>
      intro hn
      push_cast at hn ⊢
      obtain ⟨a, b, c⟩ := ih (by omega)
      have hs := hx (n + 1) (by omega) (by omega)
      refine ⟨by linarith, fun _ => by linarith, fun lo hi h => ?_⟩
      obtain ⟨c1, c2⟩ := c lo hi h
      obtain ⟨d1, d2⟩ := h (n + 1) (by omega) (by omega)
      rw [sumTo]
      constructor
      · nlinarith [mul_le_mul_of_nonneg_right d1 (sub_nonneg.2 hs.le)]
      · nlinarith [mul_le_mul_of_nonneg_right d2 (sub_nonneg.2 hs.le)]
  obtain ⟨_, k2, k3⟩ := key (s.ni - 1).toNat (by omega)
  have e : (((s.ni - 1).toNat : ℕ) : ℤ) + 1 = s.ni := by omega
  rw [e] at k2 k3
  have hp : 0 < s.ax s.ni - s.ax 1 := sub_pos.2 (k2 (by omega))
  refine ⟨sumTo (fun i => z i * (s.ax (i + 1) - s.ax i)) (s.ni - 1).toNat / (s.ax s.ni - s.ax 1),
    by simp only [poleval, ht, and_self, if_true, if_pos hp.ne'], fun lo hi h => ?_⟩
  obtain ⟨c1, c2⟩ := k3 lo hi h
  rw [le_div_iff₀ hp, div_le_iff₀ hp]
  exact ⟨c1, c2⟩

example :
    let s : Src := { typ := 'Z', ref := 'E', ni := 3, nj := 3, j1 := 1, j2 := 3, ext := 1, ax := fun i => 180 * (i - 1), ypn := 7 / 2, yps := 1 / 2 }
    poleval s (fun i => i) = some (3 / 2) := by decide +kernel

/-! ### Which points are corrected -/

/-- **C113** (which points).  On a source grid that covers the globe and is numbered from row 1, the call answers 0.
A point within a thousandth of a row of a pole gets the value of the pole (the south pole wins); any
other point south of the second row gets the correction of the south, any other point from the row
before the last one on gets the correction of the north; every other point, and every point when the
field is a wind, keeps its value. -/
theorem C113_points (s : Src) (o : Opt) (zin : ℤ → ℤ → ℚ) (n : ℕ) (x y : ℕ → ℚ) (zout : ℕ → Option ℚ)
    (hs : mayLeave s = false) (h1 : s.j1 = 1) (h2 : 2 ≤ s.j2) :
    (corrval s o zin n x y zout).1 = 0 ∧
    (o.vecteur = true → (corrval s o zin n x y zout).2 = zout) ∧
    (o.vecteur = false → ∀ k, (n ≤ k → (corrval s o zin n x y zout).2 k = zout k) ∧
      (k < n → (corrval s o zin n x y zout).2 k =
        if |y k - s.yps| < 1 / 1000 then poleval s (fun i => zin i 1)
        else if |y k - s.ypn| < 1 / 1000 then poleval s (fun i => zin i s.j2)
        else if y k < 2 then ausud s o zin (x k) (y k)
        else if (s.j2 : ℚ) - 1 ≤ y k then aunord s o zin (x k) (y k)
        else zout k)) := by
  have hr : corrval s o zin n x y zout = (0, corrpoles s o zin x y (defzones s n x y) zout) := by
    have hd : (defzones s n x y).dehors = [] := by simp only [defzones, hs]; rfl
    simp only [corrval, hd, ne_eq, not_true_eq_false, if_false]
  rw [hr]
  refine ⟨rfl, fun hv => by simp only [corrpoles, hv, if_true], fun hv k => ?_⟩
  have hsouth : south s (y k) = true ↔ y k < 2 := by
    simp only [south, h1, decide_eq_true_eq]
    rw [← not_le, ← not_le, not_iff_not]
    have := ifix_gt (y k) 1 (by omega)
    push_cast at this
    rw [show ((1 : ℤ) + 1 ≤ ifix (y k)) ↔ 1 < ifix (y k) by omega, this]
    norm_num
  have hnorth : north s (y k) = true ↔ (s.j2 : ℚ) - 1 ≤ y k := by
    simp only [north, decide_eq_true_eq, gt_iff_lt]
    have := ifix_gt (y k) (s.j2 - 2) (by omega)
    rw [this]; push_cast
    constructor <;> intro h <;> linarith
  have e : corrpoles s o zin x y (defzones s n x y) zout k =
      if k < n ∧ |y k - s.yps| < 1 / 1000 then poleval s (fun i => zin i 1)
      else if k < n ∧ |y k - s.ypn| < 1 / 1000 then poleval s (fun i => zin i s.j2)
      else if k < n ∧ y k < 2 then ausud s o zin (x k) (y k)
      else if k < n ∧ (s.j2 : ℚ) - 1 ≤ y k then aunord s o zin (x k) (y k) else zout k := by
    have hF : ¬ (false = true) := by decide
    simp only [corrpoles, hv, defzones, hs, if_neg hF, paste_eq, mem_zone, near, decide_eq_true_eq,
      hsouth, hnorth]
    rw [h1]
  simp only [e]
  constructor
  · intro h
    have h' : ¬ k < n := by omega
    simp only [h', false_and, if_false]
  · intro h
    simp only [h, true_and]

/-- On a global A grid of 5 rows: a point at the pole, one near the last row, one in the middle. -/
example :
    let s : Src := { typ := 'A', ni := 4, nj := 5, j1 := 1, j2 := 5, ext := 2, ypn := 11 / 2, yps := 1 / 2 }
    let r := corrval s { interp := 1, extrap := 4 } (fun i j => i * i + j) 3 (fun _ => 2)
      (fun k => if k = 0 then 11 / 2 else if k = 1 then 5 else 3) (fun _ => some 0)
    mayLeave s = false ∧ r.2 0 = some (25 / 2) ∧ r.2 1 = some 9 ∧ r.2 2 = some 0 := by decide +kernel

/-- **C113** (rows of the poles).  By `gdxyfll` the poles of a global A grid are half a row beyond its
last and first rows, those of a global B grid are its last and first rows. -/
theorem C113_pole_rows (g : EzLocate.Grille) (hni : 2 ≤ g.ni) (hnj : 2 ≤ g.nj) (hg : g.ig1 = 0) :
    (g.typ = .A → EzLocate.gdxyfll g 90 0 = some ((1, (g.nj : ℚ) + 1 / 2), 0) ∧
      EzLocate.gdxyfll g (-90) 0 = some ((1, 1 / 2), 0)) ∧
    (g.typ = .B → EzLocate.gdxyfll g 90 0 = some ((1, (g.nj : ℚ)), 0) ∧
      EzLocate.gdxyfll g (-90) 0 = some ((1, 1), 0)) := by
  have a1 : (2 : ℚ) ≤ g.nj := by exact_mod_cast hnj
  have a2 : (2 : ℚ) ≤ g.ni := by exact_mod_cast hni
  have n1 : (g.nj : ℚ) ≠ 0 := by intro h; linarith
  have n2 : (g.nj : ℚ) - 1 ≠ 0 := by intro h; linarith
  have n3 : (360 : ℚ) / g.ni ≠ 0 := div_ne_zero (by norm_num) (by intro h; linarith)
  have n4 : (360 : ℚ) / (g.ni - 1) ≠ 0 := div_ne_zero (by norm_num) (by intro h; linarith)
  have n5 : (180 : ℚ) / g.nj ≠ 0 := div_ne_zero (by norm_num) n1
  have n6 : (180 : ℚ) / (g.nj - 1) ≠ 0 := div_ne_zero (by norm_num) n2
  have c1 : ¬ (g.ni = 0 ∨ g.nj = 0) := by omega
  have c2 : ¬ (g.ni ≤ 1 ∨ g.nj ≤ 1) := by omega
  constructor <;> intro ht <;>
    simp only [EzLocate.gdxyfll, EzLocate.ll2rgd, ht, hg, if_neg c1, if_neg c2, if_true,
      EzLocate.llll2gd, EzLocate.wrap, lt_irrefl, if_false, n3, n4, n5, n6, or_self,
      if_neg (show ¬ ((0 : ℚ) = -180) by norm_num), Option.map_some, Option.some.injEq, Prod.mk.injEq,
      and_true, sub_zero, zero_div, zero_add, true_and]
  · constructor <;> field_simp <;> ring
  · constructor <;> field_simp <;> ring

/-! ### Linear interpolation near the poles -/

/-- The column after column `i` in the wrapped kernels. -/
def nextCol (ni ext i : ℤ) : ℤ :=
  if 0 < ext ∧ i = ni - 2 + ext then (ni + 2 - ext + i + 1) % (ni + 2 - ext) else i + 1

theorem nextCol_spec (ni ext i : ℤ) (hni : 2 ≤ ni) (he : ext = 1 ∨ ext = 2) (h1 : 1 ≤ i)
    (h2 : i ≤ ni - 2 + ext) : nextCol ni ext i = if i = ni then 1 else i + 1 := by
  unfold nextCol
  rcases he with rfl | rfl
  · by_cases h : i = ni - 1
    · rw [if_pos ⟨by decide, by omega⟩, if_neg (by omega), h]
      rw [show ni + 2 - 1 + (ni - 1) + 1 = ni + (ni + 2 - 1) * 1 by ring, Int.add_mul_emod_self_left,
        Int.emod_eq_of_lt (by omega) (by omega)]
      omega
    · rw [if_neg (by omega), if_neg (by omega)]
  · by_cases h : i = ni
    · rw [if_pos ⟨by decide, by omega⟩, if_pos h, h]
      rw [show ni + 2 - 2 + ni + 1 = 1 + ni * 2 by ring, show ni + 2 - 2 = ni by ring,
        Int.add_mul_emod_self_left, Int.emod_eq_of_lt (by omega) (by omega)]
    · rw [if_neg (by omega), if_neg h]

theorem nextCol_range (ni ext i : ℤ) (hni : 2 ≤ ni) (he : ext = 1 ∨ ext = 2) (h1 : 1 ≤ i)
    (h2 : i ≤ ni - 2 + ext) : 1 ≤ nextCol ni ext i ∧ nextCol ni ext i ≤ ni := by
  rw [nextCol_spec ni ext i hni he h1 h2]
  split_ifs <;> rcases he with rfl | rfl <;> omega

/-- A row at a fractional column. -/
def across (zin : ℤ → ℤ → ℚ) (i ip : ℤ) (dx : ℚ) (j : ℤ) : ℚ := zlin (zin i j) (zin ip j) dx

theorem ifix_at (q : ℚ) (n : ℤ) (h0 : 0 ≤ n) (h1 : (n : ℚ) ≤ q) (h2 : q < n + 1) : ifix q = n := by
  have h0' : (0 : ℚ) ≤ n := by exact_mod_cast h0
  unfold ifix
  rw [if_pos (by linarith), Int.floor_eq_iff]
  exact ⟨h1, h2⟩

/-- The value `aunord` computes in linear mode. -/
theorem aunord_linear (s : Src) (o : Opt) (zin : ℤ → ℤ → ℚ) (x y p : ℚ) (ho : o.interp = 1)
    (hni : 2 ≤ s.ni) (he : s.ext = 1 ∨ s.ext = 2) (hj : s.j1 + 2 ≤ s.j2)
    (hp : poleval s (fun i => zin i s.j2) = some p) (hy : (s.j2 : ℚ) - 1 ≤ y) :
    let i := min (s.ni - 2 + s.ext) (max 1 (ifix x))
    let r := across zin i (nextCol s.ni s.ext i) (x - i)
    (y < s.j2 → aunord s o zin x y = some (zlin (r (s.j2 - 1)) (r s.j2) (y - (s.j2 - 1)))) ∧
    ((s.j2 : ℚ) ≤ y → aunord s o zin x y = some (zlin (r s.j2) p (y - s.j2))) := by
  intro i r
  have hi1 : 1 ≤ i := by simp only [i]; rcases he with he | he <;> rw [he] <;> omega
  have hi2 : i ≤ s.ni - 2 + s.ext := by simp only [i]; omega
  obtain ⟨hc1, hc2⟩ := nextCol_range s.ni s.ext i hni he hi1 hi2
  have hi3 : i ≤ s.ni := by rcases he with he | he <;> rw [he] at hi2 <;> omega
  have main : aunord s o zin x y = bilin s.ni 1 4 (fillnpole s zin p) i (nextCol s.ni s.ext i)
      (min 3 (max 1 (ifix (y - (s.j2 - 3))))) (x - i)
      (y - (s.j2 - 3) - (min 3 (max 1 (ifix (y - (s.j2 - 3)))) : ℤ)) := by
    simp only [aunord, hp, Option.bind_eq_bind, Option.bind_some, if_neg (show ¬ s.j2 - 2 < s.j1 by omega),
      ho, if_true, if_neg (show ¬ ((1 : ℤ) = 3) by decide), rgdint1w]
    rfl
  have f4 : ∀ a, fillnpole s zin p a 4 = p := fun a => by simp [fillnpole]
  have f3 : ∀ a, fillnpole s zin p a 3 = zin a s.j2 := fun a => by simp [fillnpole]
  have f2 : ∀ a, fillnpole s zin p a 2 = zin a (s.j2 - 1) := fun a => by
    simp only [fillnpole, if_neg (show ¬ ((2 : ℤ) = 4) by decide)]; congr 1; ring
  constructor
  · intro hlt
    have hf : ifix (y - (s.j2 - 3)) = 2 := ifix_at _ 2 (by decide) (by push_cast; linarith) (by push_cast; linarith)
    rw [main, hf, show min (3 : ℤ) (max 1 2) = 2 by decide,
      bilin_some hi1 hi3 hc1 hc2 (by decide) (by decide), show (2 : ℤ) + 1 = 3 by decide, f2, f2, f3, f3]
    simp only [r, across]
    congr 2; push_cast; ring
  · intro hge
    have hf : 3 ≤ ifix (y - (s.j2 - 3)) := by
      have := (ifix_gt (y - (s.j2 - 3)) 2 (by decide)).2 (by push_cast; linarith)
      omega
    rw [main, show min 3 (max 1 (ifix (y - (s.j2 - 3)))) = (3 : ℤ) by omega,
      bilin_some hi1 hi3 hc1 hc2 (by decide) (by decide), show (3 : ℤ) + 1 = 4 by decide, f3, f3, f4, f4]
    simp only [r, across]
    have hpp : zlin p p (x - i) = p := by unfold zlin; ring
    rw [hpp]
    congr 2; push_cast; ring

/-- **C113** (linear, up to the last row).  Between the row before the last one and the last row, the
correction of the north changes nothing: it is the value of the plain linear interpolation, for grids
with regular axes, for any number of rows before the first. -/
theorem C113_linear_north (s : Src) (o : Opt) (zin : ℤ → ℤ → ℚ) (x y : ℚ) (ho : o.interp = 1)
    (ht : s.typ ≠ 'Y' ∧ s.typ ≠ '#' ∧ s.typ ≠ 'Z' ∧ s.typ ≠ 'G') (hni : 2 ≤ s.ni)
    (he : s.ext = 1 ∨ s.ext = 2) (hj : s.j1 + 2 ≤ s.j2) (h2 : 1 ≤ s.j2) (hy : (s.j2 : ℚ) - 1 ≤ y)
    (hy2 : y ≤ s.j2) : ∃ v, gdinterp s 1 zin x y = some v ∧ aunord s o zin x y = some v := by
  obtain ⟨p, hp, -⟩ := C113_mean s (fun i => zin i s.j2) (by omega) (fun h => ht.2.2.1 h.1)
  obtain ⟨A, B⟩ := aunord_linear s o zin x y p ho hni he hj hp hy
  have hj0 : (1 : ℚ) ≤ s.j2 := by exact_mod_cast h2
  have hg : gdinterp s 1 zin x y = bilin s.ni s.j1 s.j2 zin (min (s.ni - 2 + s.ext) (max 1 (ifix x)))
      (nextCol s.ni s.ext (min (s.ni - 2 + s.ext) (max 1 (ifix x)))) (min (s.j2 - 1) (max s.j1 (ifix y)))
      (x - (min (s.ni - 2 + s.ext) (max 1 (ifix x)) : ℤ)) (y - (min (s.j2 - 1) (max s.j1 (ifix y)) : ℤ)) := by
    simp only [gdinterp, if_neg ht.1, if_neg (show ¬ ((1 : ℤ) = 0) by decide),
      if_neg (show ¬ (s.typ = '#' ∨ s.typ = 'Z' ∨ s.typ = 'G') by tauto), if_true]
    rcases he with he | he
    · rw [he, if_neg (by decide)]
      have e1 : min (s.ni - 2 + 1) (max 1 (ifix x)) = min (s.ni - 1) (max 1 (ifix x)) := by omega
      rw [e1, nextCol_spec s.ni 1 _ hni (Or.inl rfl) (by omega) (by omega), if_neg (by omega)]
      rfl
    · rw [he, if_pos rfl]
      rfl
  have hf : min (s.j2 - 1) (max s.j1 (ifix y)) = s.j2 - 1 := by
    have := (ifix_gt y (s.j2 - 2 + 1) (by omega))
    have h3 : s.j2 - 1 ≤ ifix y := by
      by_cases h : s.j2 = 1
      · have h0 : 0 ≤ y := by rw [h] at hy; push_cast at hy; linarith
        have : 0 ≤ ifix y := by unfold ifix; rw [if_pos h0]; exact Int.floor_nonneg.2 h0
        omega
      · have := (ifix_gt y (s.j2 - 2) (by omega)).2 (by push_cast; linarith)
        omega
    omega
  rw [hf] at hg
  generalize hi : min (s.ni - 2 + s.ext) (max 1 (ifix x)) = i at *
  have hi1 : 1 ≤ i := by rcases he with he | he <;> rw [he] at hi <;> omega
  have hi2 : i ≤ s.ni - 2 + s.ext := by omega
  obtain ⟨hc1, hc2⟩ := nextCol_range s.ni s.ext i hni he hi1 hi2
  rw [bilin_some hi1 (by rcases he with he | he <;> rw [he] at hi2 <;> omega) hc1 hc2 (by omega) (by omega),
    show s.j2 - 1 + 1 = s.j2 by ring] at hg
  refine ⟨_, hg, ?_⟩
  rcases lt_or_eq_of_le hy2 with h | h
  · rw [A h]; simp only [across]; push_cast; rfl
  · rw [B h.ge]; simp only [across, h]; unfold zlin; push_cast; congr 1; ring

example :
    let s : Src := { typ := 'B', ni := 4, nj := 4, j1 := 1, j2 := 4, ext := 1, ypn := 4, yps := 1 }
    aunord s { interp := 1, extrap := 4 } (fun i j => i * i * j) (7 / 2) (7 / 2) = some (175 / 4) ∧
    gdinterp s 1 (fun i j => i * i * j) (7 / 2) (7 / 2) = some (175 / 4) := by decide +kernel

/-- **C113** (linear, beyond the last row).  Between the last row and the place given to the pole (one
row further) the value lies within any bounds of the last row, and it goes straight from the value of
plain interpolation on the last row to the value of the pole. -/
theorem C113_linear_beyond (s : Src) (o : Opt) (zin : ℤ → ℤ → ℚ) (x y : ℚ) (ho : o.interp = 1)
    (ht : ¬ (s.typ = 'Z' ∧ s.ref = 'E')) (hni : 2 ≤ s.ni)
    (he : s.ext = 1 ∨ s.ext = 2) (hj : s.j1 + 2 ≤ s.j2) (hx1 : 1 ≤ x) (hx2 : x ≤ s.ni - 1 + s.ext)
    (hy : (s.j2 : ℚ) ≤ y) (hy2 : y ≤ s.j2 + 1) :
    ∃ v w p, aunord s o zin x y = some v ∧ aunord s o zin x s.j2 = some w ∧
      poleval s (fun i => zin i s.j2) = some p ∧ v = w + (p - w) * (y - s.j2) ∧
      ∀ lo hi, (∀ i, 1 ≤ i → i ≤ s.ni → lo ≤ zin i s.j2 ∧ zin i s.j2 ≤ hi) → lo ≤ v ∧ v ≤ hi := by
  obtain ⟨p, hp, -, hb⟩ := C113_mean s (fun i => zin i s.j2) (by omega) ht
  obtain ⟨-, B⟩ := aunord_linear s o zin x y p ho hni he hj hp (by linarith)
  obtain ⟨-, B'⟩ := aunord_linear s o zin x s.j2 p ho hni he hj hp (by linarith)
  have B := B hy
  have B' := B' le_rfl
  have hcell := clamp_cell 1 (s.ni - 1 + s.ext) x (by exact_mod_cast hx1) (by push_cast; exact hx2)
    (by linarith) (by rcases he with he | he <;> rw [he] <;> omega)
  rw [show s.ni - 1 + s.ext - 1 = s.ni - 2 + s.ext by ring] at hcell
  simp only at hcell
  generalize hi : min (s.ni - 2 + s.ext) (max 1 (ifix x)) = i at *
  obtain ⟨hi1, hi2, hi3, hi4⟩ := hcell
  obtain ⟨hc1, hc2⟩ := nextCol_range s.ni s.ext i hni he hi1 (by omega)
  have hin : i ≤ s.ni := by rcases he with he | he <;> rw [he] at hi2 <;> omega
  refine ⟨_, _, p, B, B', hp, ?_, ?_⟩
  · unfold zlin; ring
  · intro lo hi h
    exact zlin_between (by linarith) (by linarith)
      (zlin_between (by linarith) (by linarith) (h i hi1 hin) (h _ hc1 hc2)) (hb lo hi h)

example :
    let s : Src := { typ := 'A', ni := 4, nj := 4, j1 := 1, j2 := 4, ext := 2, ypn := 9 / 2, yps := 1 / 2 }
    aunord s { interp := 1, extrap := 4 } (fun i _ => i) (9 / 2) (17 / 4) = some (5 / 2) ∧
    aunord s { interp := 1, extrap := 4 } (fun i _ => i) 4 (17 / 4) = some (29 / 8) := by decide +kernel

/-- The value `ausud` computes in linear mode, on a grid numbered from row 1. -/
theorem ausud_linear (s : Src) (o : Opt) (zin : ℤ → ℤ → ℚ) (x y p : ℚ) (ho : o.interp = 1)
    (hni : 2 ≤ s.ni) (he : s.ext = 1 ∨ s.ext = 2) (h1 : s.j1 = 1) (hj : 3 ≤ s.j2)
    (hp : poleval s (fun i => zin i s.j1) = some p) (hy : 0 ≤ y) :
    let i := min (s.ni - 2 + s.ext) (max 1 (ifix x))
    let r := across zin i (nextCol s.ni s.ext i) (x - i)
    (y < 1 → ausud s o zin x y = some (zlin p (r 1) y)) ∧
    (1 ≤ y → y < 2 → ausud s o zin x y = some (zlin (r 1) (r 2) (y - 1))) := by
  intro i r
  have hi1 : 1 ≤ i := by simp only [i]; rcases he with he | he <;> rw [he] <;> omega
  have hi2 : i ≤ s.ni - 2 + s.ext := by simp only [i]; omega
  obtain ⟨hc1, hc2⟩ := nextCol_range s.ni s.ext i hni he hi1 hi2
  have hi3 : i ≤ s.ni := by rcases he with he | he <;> rw [he] at hi2 <;> omega
  have main : ausud s o zin x y = bilin s.ni 0 3 (fun a b => fillspole s zin p a (b + 1)) i
      (nextCol s.ni s.ext i) (min 2 (max 0 (ifix y))) (x - i) (y - (min 2 (max 0 (ifix y)) : ℤ)) := by
    rw [h1] at hp
    simp only [ausud, h1, hp, Option.bind_eq_bind, Option.bind_some,
      if_neg (show ¬ s.j2 < 1 + 2 by omega), ho, if_true, if_neg (show ¬ ((1 : ℤ) = 3) by decide), rgdint1w]
    simp only [show (1 : ℤ) - 1 = 0 by decide, show (1 : ℤ) + 2 = 3 by decide,
      show (3 : ℤ) - 1 = 2 by decide, show ∀ b : ℤ, b - (1 - 2) = b + 1 by intro b; ring]
    rfl
  have f0 : ∀ a, fillspole s zin p a (0 + 1) = p := fun a => by simp [fillspole]
  have f1 : ∀ a, fillspole s zin p a (1 + 1) = zin a 1 := fun a => by simp [fillspole, h1]
  have f2 : ∀ a, fillspole s zin p a (1 + 1 + 1) = zin a 2 := fun a => by simp [fillspole, h1]
  constructor
  · intro hlt
    have hf : ifix y = 0 := ifix_at _ 0 (by decide) (by push_cast; linarith) (by push_cast; linarith)
    rw [main, hf, show min (2 : ℤ) (max 0 0) = 0 by decide,
      bilin_some hi1 hi3 hc1 hc2 (by decide) (by decide)]
    simp only [f0, show ∀ a, fillspole s zin p a (0 + 1 + 1) = zin a 1 from f1]
    have hpp : zlin p p (x - i) = p := by unfold zlin; ring
    rw [hpp]; simp only [r, across]
    congr 2; push_cast; ring
  · intro hge hlt
    have hf : ifix y = 1 := ifix_at _ 1 (by decide) (by push_cast; linarith) (by push_cast; linarith)
    rw [main, hf, show min (2 : ℤ) (max 0 1) = 1 by decide,
      bilin_some hi1 hi3 hc1 hc2 (by decide) (by decide)]
    simp only [f1, f2, r, across]
    congr 2

/-- **C113** (linear, south).  On a grid with regular axes numbered from row 1: between the first and
the second row the correction of the south is plain linear interpolation; between row 0 (the place given
to the pole) and the first row the value goes straight from the value of the pole to that of plain
interpolation, and lies within any bounds of the first row. -/
theorem C113_linear_south (s : Src) (o : Opt) (zin : ℤ → ℤ → ℚ) (x y : ℚ) (ho : o.interp = 1)
    (ht : s.typ ≠ 'Y' ∧ s.typ ≠ '#' ∧ s.typ ≠ 'Z' ∧ s.typ ≠ 'G') (hni : 2 ≤ s.ni)
    (he : s.ext = 1 ∨ s.ext = 2) (h1 : s.j1 = 1) (hj : 3 ≤ s.j2) (hx1 : 1 ≤ x)
    (hx2 : x ≤ s.ni - 1 + s.ext) (hy : 0 ≤ y) (hy2 : y < 2) :
    ∃ v w p, ausud s o zin x y = some v ∧ poleval s (fun i => zin i 1) = some p ∧
      gdinterp s 1 zin x (max y 1) = some w ∧
      (1 ≤ y → v = w) ∧ (y < 1 → v = p + (w - p) * y) ∧
      (y < 1 → ∀ lo hi, (∀ i, 1 ≤ i → i ≤ s.ni → lo ≤ zin i 1 ∧ zin i 1 ≤ hi) → lo ≤ v ∧ v ≤ hi) := by
  obtain ⟨p, hp, -, hb⟩ := C113_mean s (fun i => zin i 1) (by omega) (fun h => ht.2.2.1 h.1)
  obtain ⟨A, B⟩ := ausud_linear s o zin x y p ho hni he h1 hj (by rw [h1]; exact hp) hy
  have hg : ∀ t : ℚ, 1 ≤ t → t < 2 → gdinterp s 1 zin x t = bilin s.ni 1 s.j2 zin
      (min (s.ni - 2 + s.ext) (max 1 (ifix x)))
      (nextCol s.ni s.ext (min (s.ni - 2 + s.ext) (max 1 (ifix x)))) 1
      (x - (min (s.ni - 2 + s.ext) (max 1 (ifix x)) : ℤ)) (t - 1) := by
    intro t t1 t2
    have hf : ifix t = 1 := ifix_at _ 1 (by decide) (by push_cast; linarith) (by push_cast; linarith)
    have hm : min (s.j2 - 1) (max 1 (1 : ℤ)) = 1 := by omega
    simp only [gdinterp, if_neg ht.1, if_neg (show ¬ ((1 : ℤ) = 0) by decide),
      if_neg (show ¬ (s.typ = '#' ∨ s.typ = 'Z' ∨ s.typ = 'G') by tauto), if_true]
    rcases he with he | he
    · rw [he, if_neg (by decide)]
      have e1 : min (s.ni - 2 + 1) (max 1 (ifix x)) = min (s.ni - 1) (max 1 (ifix x)) := by omega
      rw [e1, nextCol_spec s.ni 1 _ hni (Or.inl rfl) (by omega) (by omega), if_neg (by omega)]
      simp only [rgdint1nw, hf, hm, h1]
      norm_num
    · rw [he, if_pos rfl]
      simp only [rgdint1w, hf, hm, h1]
      norm_num [nextCol]
  have hcell := clamp_cell 1 (s.ni - 1 + s.ext) x (by exact_mod_cast hx1) (by push_cast; exact hx2)
    (by linarith) (by rcases he with he | he <;> rw [he] <;> omega)
  rw [show s.ni - 1 + s.ext - 1 = s.ni - 2 + s.ext by ring] at hcell
  simp only at hcell
  generalize hi : min (s.ni - 2 + s.ext) (max 1 (ifix x)) = i at *
  obtain ⟨hi1, hi2, hi3, hi4⟩ := hcell
  obtain ⟨hc1, hc2⟩ := nextCol_range s.ni s.ext i hni he hi1 (by omega)
  have hin : i ≤ s.ni := by rcases he with he | he <;> rw [he] at hi2 <;> omega
  have hg' := hg (max y 1) (le_max_right _ _) (max_lt hy2 (by norm_num))
  rw [bilin_some hi1 hin hc1 hc2 (by decide) (by omega)] at hg'
  by_cases h : y < 1
  · refine ⟨_, _, p, A h, hp, hg', fun h' => absurd h (not_lt.2 h'), fun _ => ?_, fun _ lo hi hlh => ?_⟩
    · rw [max_eq_right h.le]; simp only [across, zlin]; ring
    · exact zlin_between hy h.le (hb lo hi hlh)
        (zlin_between (by linarith) (by linarith) (hlh i hi1 hin) (hlh _ hc1 hc2))
  · have h' : 1 ≤ y := not_lt.1 h
    refine ⟨_, _, p, B h' hy2, hp, hg', fun _ => ?_, fun h'' => absurd h'' h, fun h'' => absurd h'' h⟩
    rw [max_eq_left h']; rfl

example :
    let s : Src := { typ := 'A', ni := 4, nj := 4, j1 := 1, j2 := 4, ext := 2, ypn := 9 / 2, yps := 1 / 2 }
    ausud s { interp := 1, extrap := 4 } (fun i j => i * j) (9 / 2) (3 / 2) = some (15 / 4) ∧
    ausud s { interp := 1, extrap := 4 } (fun i j => i * j) 4 (3 / 4) = some (29 / 8) := by decide +kernel

/-! ### Nearest neighbour near the poles -/

theorem nint_at (q : ℚ) (n : ℤ) (h0 : 0 ≤ q) (h1 : (n : ℚ) - 1 / 2 ≤ q) (h2 : q < n + 1 / 2) :
    nint q = n := by
  unfold nint
  rw [if_pos h0, Int.floor_eq_iff]
  constructor <;> linarith

/-- **C113** (nearest neighbour, north).  From the row before the last one to half a row beyond the last
one the correction is the plain nearest neighbour; from there on it is the value of the pole. -/
theorem C113_nearest_north (s : Src) (o : Opt) (zin : ℤ → ℤ → ℚ) (x y : ℚ) (ho : o.interp = 0)
    (ht : s.typ ≠ 'Y' ∧ ¬ (s.typ = 'Z' ∧ s.ref = 'E')) (hni : 1 ≤ s.ni) (hj : s.j1 + 2 ≤ s.j2)
    (h2 : 1 ≤ s.j2) (hy : (s.j2 : ℚ) - 1 ≤ y) :
    (y < s.j2 + 1 / 2 → aunord s o zin x y = gdinterp s 0 zin x y) ∧
    ((s.j2 : ℚ) + 1 / 2 ≤ y → aunord s o zin x y = poleval s (fun i => zin i s.j2)) := by
  obtain ⟨p, hp, -, -⟩ := C113_mean s (fun i => zin i s.j2) hni ht.2
  have hj0 : (1 : ℚ) ≤ s.j2 := by exact_mod_cast h2
  have main : aunord s o zin x y = rd s.ni 1 4 (fillnpole s zin p) (min s.ni (max 1 (nint x)))
      (min 4 (max 1 (nint (y - (s.j2 - 3))))) := by
    simp only [aunord, hp, Option.bind_eq_bind, Option.bind_some,
      if_neg (show ¬ s.j2 - 2 < s.j1 by omega), ho, if_true,
      if_neg (show ¬ ((0 : ℤ) = 3) by decide), if_neg (show ¬ ((0 : ℤ) = 1) by decide), rgdint0]
  have hg : gdinterp s 0 zin x y = rd s.ni s.j1 s.j2 zin (min s.ni (max 1 (nint x)))
      (min s.j2 (max s.j1 (nint y))) := by
    simp only [gdinterp, if_neg ht.1, if_true, rgdint0]
  rw [hp]
  constructor
  · intro hlt
    by_cases h : y < s.j2 - 1 / 2
    · have e1 : nint (y - (s.j2 - 3)) = 2 := nint_at _ 2 (by linarith) (by push_cast; linarith) (by push_cast; linarith)
      have e2 : nint y = s.j2 - 1 := nint_at _ _ (by linarith) (by push_cast; linarith) (by push_cast; linarith)
      rw [main, hg, e1, e2, show min (4 : ℤ) (max 1 2) = 2 by decide,
        show min s.j2 (max s.j1 (s.j2 - 1)) = s.j2 - 1 by omega,
        rd_some (by omega) (by omega) (by decide) (by decide),
        rd_some (by omega) (by omega) (by omega) (by omega)]
      simp only [fillnpole, if_neg (show ¬ ((2 : ℤ) = 4) by decide)]
      congr 2; ring
    · have e1 : nint (y - (s.j2 - 3)) = 3 := nint_at _ 3 (by linarith) (by push_cast; linarith) (by push_cast; linarith)
      have e2 : nint y = s.j2 := nint_at _ _ (by linarith) (by linarith) (by linarith)
      rw [main, hg, e1, e2, show min (4 : ℤ) (max 1 3) = 3 by decide,
        show min s.j2 (max s.j1 s.j2) = s.j2 by omega,
        rd_some (by omega) (by omega) (by decide) (by decide),
        rd_some (by omega) (by omega) (by omega) (by omega)]
      simp only [fillnpole, if_neg (show ¬ ((3 : ℤ) = 4) by decide)]
      congr 2; ring
  · intro hge
    have e : 4 ≤ nint (y - (s.j2 - 3)) := by
      unfold nint
      rw [if_pos (by linarith), Int.le_floor]; push_cast; linarith
    rw [main, show min 4 (max 1 (nint (y - (s.j2 - 3)))) = (4 : ℤ) by omega,
      rd_some (by omega) (by omega) (by decide) (by decide)]
    simp [fillnpole]

example :
    let s : Src := { typ := 'G', ni := 4, nj := 4, j1 := 1, j2 := 4, ext := 2, ypn := 9 / 2, yps := 1 / 2 }
    aunord s { interp := 0, extrap := 4 } (fun i j => i * j) 3 (17 / 4) = some 12 ∧
    aunord s { interp := 0, extrap := 4 } (fun i j => i * j) 3 (19 / 4) = some 10 := by decide +kernel

/-! ### Cubic interpolation near the poles -/

theorem newton_second {x1 x2 x3 x4 z1 z2 z3 z4 : ℚ} (h : x1 ≠ x2) :
    newton (inv4 x1 x2 x3 x4) z1 z2 z3 z4 x2 x1 x2 x3 = z2 := by
  have h' : x2 - x1 ≠ 0 := sub_ne_zero.2 (Ne.symm h)
  simp only [newton, inv4]; field_simp; ring

theorem newton_third {x1 x2 x3 x4 z1 z2 z3 z4 : ℚ} (h : x1 ≠ x2) (h3 : x1 ≠ x3) (h4 : x2 ≠ x3) :
    newton (inv4 x1 x2 x3 x4) z1 z2 z3 z4 x3 x1 x2 x3 = z3 := by
  have a : x2 - x1 ≠ 0 := sub_ne_zero.2 (Ne.symm h)
  have b : x3 - x1 ≠ 0 := sub_ne_zero.2 (Ne.symm h3)
  have c : x3 - x2 ≠ 0 := sub_ne_zero.2 (Ne.symm h4)
  simp only [newton, inv4]
  have e : (x3 - x3) = 0 := sub_self _
  rw [e, mul_zero, add_zero]
  field_simp; ring

theorem cubic_zero (z1 z2 z3 z4 : ℚ) : cubic z1 z2 z3 z4 0 = z2 := by unfold cubic cubicWith; ring

theorem cubic_one (z1 z2 z3 z4 : ℚ) : cubic z1 z2 z3 z4 1 = z3 - z1 / 2 ^ 26 := by
  unfold cubic cubicWith c6 c3; ring

theorem cols3w_range (ni wrap i : ℤ) (hw : wrap = 1 ∨ wrap = 2) (hni : 4 ≤ ni) (h1 : 1 ≤ i)
    (h2 : i ≤ ni - 2 + wrap) :
    (1 ≤ (cols3w ni wrap i).1 ∧ (cols3w ni wrap i).1 ≤ ni) ∧
    (1 ≤ (cols3w ni wrap i).2.1 ∧ (cols3w ni wrap i).2.1 ≤ ni) ∧
    (1 ≤ (cols3w ni wrap i).2.2 ∧ (cols3w ni wrap i).2.2 ≤ ni) := by
  have m : ∀ a l : ℤ, 0 < l → 0 ≤ a % l ∧ a % l < l := fun a l hl =>
    ⟨Int.emod_nonneg _ (by omega), Int.emod_lt_of_pos _ hl⟩
  rcases hw with rfl | rfl
  · have e1 : i = ni - 1 → (ni + 2 - 1 + i + 2) % (ni + 2 - 1) = 0 := by
      rintro rfl
      rw [show ni + 2 - 1 + (ni - 1) + 2 = 0 + (ni + 2 - 1) * 2 by ring, Int.add_mul_emod_self_left]; simp
    have a1 : (ni + 2 - 1 + i - 1) % (ni + 2 - 1) = i - 1 := by
      rw [show ni + 2 - 1 + i - 1 = (i - 1) + (ni + 2 - 1) * 1 by ring, Int.add_mul_emod_self_left,
        Int.emod_eq_of_lt (by omega) (by omega)]
    have a2 : (ni + 2 - 1 + i + 1) % (ni + 2 - 1) = i + 1 := by
      rw [show ni + 2 - 1 + i + 1 = (i + 1) + (ni + 2 - 1) * 1 by ring, Int.add_mul_emod_self_left,
        Int.emod_eq_of_lt (by omega) (by omega)]
    have a3 := m (ni + 2 - 1 + i + 2) (ni + 2 - 1) (by omega)
    simp only [cols3w, a1, a2, if_pos (show (0 : ℤ) < 1 by decide), true_and]
    generalize (ni + 2 - 1 + i + 2) % (ni + 2 - 1) = t at *
    refine ⟨?_, ?_, ?_⟩ <;> split_ifs <;> omega
  · have a1 := m (ni + 2 - 2 + i - 1) (ni + 2 - 2) (by omega)
    have a2 := m (ni + 2 - 2 + i + 1) (ni + 2 - 2) (by omega)
    have a3 := m (ni + 2 - 2 + i + 2) (ni + 2 - 2) (by omega)
    simp only [cols3w, if_pos (show (0 : ℤ) < 2 by decide), if_neg (show ¬ ((2 : ℤ) = 1) by decide), false_and,
      if_false]
    generalize (ni + 2 - 2 + i - 1) % (ni + 2 - 2) = t1 at *
    generalize (ni + 2 - 2 + i + 1) % (ni + 2 - 2) = t2 at *
    generalize (ni + 2 - 2 + i + 2) % (ni + 2 - 2) = t3 at *
    refine ⟨?_, ?_, ?_⟩ <;> split_ifs <;> omega

theorem cols3wnnc_range (ni wrap i : ℤ) (hw : wrap = 1 ∨ wrap = 2) (hni : 4 ≤ ni) (h1 : 1 ≤ i)
    (h2 : i ≤ ni - 2 + wrap) :
    (1 ≤ (cols3wnnc ni wrap i).1 ∧ (cols3wnnc ni wrap i).1 ≤ ni) ∧
    (1 ≤ (cols3wnnc ni wrap i).2.1 ∧ (cols3wnnc ni wrap i).2.1 ≤ ni) ∧
    (1 ≤ (cols3wnnc ni wrap i).2.2 ∧ (cols3wnnc ni wrap i).2.2 ≤ ni) := by
  unfold cols3wnnc
  split_ifs with h
  · exact cols3w_range ni wrap i hw hni h1 h2
  · rcases hw with rfl | rfl <;> refine ⟨⟨?_, ?_⟩, ⟨?_, ?_⟩, ⟨?_, ?_⟩⟩ <;> simp only <;> omega

/-- The regular cubic correction at a column of the grid: row `j` gives the value of the row, row
`j + 1` that of row `j + 1` less the value of row `j - 1` over 2^26 (the constants of the kernel are
single precision). -/
theorem rgdint3wnnc_node (ni a wrap : ℤ) (z : ℤ → ℤ → ℚ) (i : ℤ) (hw : wrap = 1 ∨ wrap = 2)
    (hni : 4 ≤ ni) (h1 : 1 ≤ i) (h2 : i ≤ ni - 2 + wrap) :
    rgdint3wnnc ni a (a + 3) wrap z i (a + 1) = some (z i (a + 1)) ∧
    rgdint3wnnc ni a (a + 3) wrap z i (a + 2) = some (z i (a + 2) - z i a / 2 ^ 26) := by
  have hi : min (ni - 2 + wrap) (max 1 (max (2 - wrap) (ifix (i : ℚ)))) = i := by
    rw [ifix_int]; omega
  obtain ⟨⟨c1, c2⟩, ⟨c3, c4⟩, ⟨c5, c6⟩⟩ := cols3wnnc_range ni wrap i hw hni h1 h2
  have hin : i ≤ ni := by rcases hw with rfl | rfl <;> omega
  constructor
  · have hj : min (a + 3 - 2) (max (a + 1) (ifix ((a : ℚ) + 1))) = a + 1 := by omega
    simp only [rgdint3wnnc, hi, hj]
    rw [bicubic_some ⟨c1, c2⟩ ⟨h1, hin⟩ ⟨c3, c4⟩ ⟨c5, c6⟩ (by omega) (by omega), value16]
    simp only [sub_self]
    rw [show ((a : ℚ) + 1 - ((a + 1 : ℤ) : ℚ)) = 0 by push_cast; ring, cubic_zero, cubic_zero]
  · have hj : min (a + 3 - 2) (max (a + 1) (ifix ((a : ℚ) + 2))) = a + 1 := by omega
    simp only [rgdint3wnnc, hi, hj]
    rw [bicubic_some ⟨c1, c2⟩ ⟨h1, hin⟩ ⟨c3, c4⟩ ⟨c5, c6⟩ (by omega) (by omega), value16]
    simp only [sub_self]
    rw [show ((a : ℚ) + 2 - ((a + 1 : ℤ) : ℚ)) = 1 by push_cast; ring, cubic_one, cubic_zero, cubic_zero,
      show a + 1 + 1 = a + 2 by ring, show a + 1 - 1 = a by ring]

/-- **C113** (cubic, regular axes).  At a column of the grid the corrections reproduce the row before the
last one, the last row up to the value two rows before it over 2^26, and the first row. -/
theorem C113_cubic_regular (s : Src) (o : Opt) (zin : ℤ → ℤ → ℚ) (i : ℤ) (ho : o.interp = 3)
    (ht : s.typ ≠ 'Z' ∧ s.typ ≠ 'E' ∧ s.typ ≠ 'G') (hni : 4 ≤ s.ni) (he : s.ext = 1 ∨ s.ext = 2)
    (hj : s.j1 + 2 ≤ s.j2) (h1 : 1 ≤ i) (h2 : i ≤ s.ni - 2 + s.ext) :
    aunord s o zin i (s.j2 - 1) = some (zin i (s.j2 - 1)) ∧
    aunord s o zin i s.j2 = some (zin i s.j2 - zin i (s.j2 - 2) / 2 ^ 26) ∧
    ausud s o zin i s.j1 = some (zin i s.j1) := by
  obtain ⟨p, hp, -, -⟩ := C113_mean s (fun i => zin i s.j2) (by omega) (fun h => ht.1 h.1)
  obtain ⟨q, hq, -, -⟩ := C113_mean s (fun i => zin i s.j1) (by omega) (fun h => ht.1 h.1)
  have t1 : ¬ (s.typ = 'Z' ∨ s.typ = 'E' ∨ s.typ = 'G') := by tauto
  have main : ∀ y, aunord s o zin i y = rgdint3wnnc s.ni (s.j2 - 2) (s.j2 - 2 + 3) s.ext
      (fun a b => fillnpole s zin p a (b - (s.j2 - 3))) i y := by
    intro y
    simp only [aunord, hp, Option.bind_eq_bind, Option.bind_some,
      if_neg (show ¬ s.j2 - 2 < s.j1 by omega), ho, if_true, if_neg t1]
    rw [show s.j2 - 2 + 3 = s.j2 + 1 by ring]
  have main' : ∀ y, ausud s o zin i y = rgdint3wnnc s.ni (s.j1 - 1) (s.j1 - 1 + 3) s.ext
      (fun a b => fillspole s zin q a (b - (s.j1 - 2))) i y := by
    intro y
    simp only [ausud, hq, Option.bind_eq_bind, Option.bind_some,
      if_neg (show ¬ s.j2 < s.j1 + 2 by omega), ho, if_true, if_neg t1]
    rw [show s.j1 - 1 + 3 = s.j1 + 2 by ring]
  obtain ⟨A, B⟩ := rgdint3wnnc_node s.ni (s.j2 - 2) s.ext
    (fun a b => fillnpole s zin p a (b - (s.j2 - 3))) i he hni h1 h2
  obtain ⟨C, -⟩ := rgdint3wnnc_node s.ni (s.j1 - 1) s.ext
    (fun a b => fillspole s zin q a (b - (s.j1 - 2))) i he hni h1 h2
  refine ⟨?_, ?_, ?_⟩
  · rw [main, show (s.j2 : ℚ) - 1 = ((s.j2 - 2 : ℤ) : ℚ) + 1 by push_cast; ring, A]
    simp only [fillnpole, if_neg (show ¬ (s.j2 - 2 + 1 - (s.j2 - 3) = 4) by omega)]
    congr 2; ring
  · rw [main, show (s.j2 : ℚ) = ((s.j2 - 2 : ℤ) : ℚ) + 2 by push_cast; ring, B]
    simp only [fillnpole, if_neg (show ¬ (s.j2 - 2 + 2 - (s.j2 - 3) = 4) by omega),
      if_neg (show ¬ (s.j2 - 2 - (s.j2 - 3) = 4) by omega)]
    rw [show s.j2 - 3 + (s.j2 - 2 + 2 - (s.j2 - 3)) = s.j2 by ring,
      show s.j2 - 3 + (s.j2 - 2 - (s.j2 - 3)) = s.j2 - 2 by ring]
  · rw [main', show (s.j1 : ℚ) = ((s.j1 - 1 : ℤ) : ℚ) + 1 by push_cast; ring, C]
    simp only [fillspole, if_neg (show ¬ (s.j1 - 1 + 1 - (s.j1 - 2) = 1) by omega)]
    congr 2; ring

example :
    let s : Src := { typ := 'B', ni := 5, nj := 4, j1 := 1, j2 := 4, ext := 1, ypn := 4, yps := 1 }
    aunord s { interp := 3, extrap := 4 } (fun i j => i * j) 4 3 = some 12 ∧
    ausud s { interp := 3, extrap := 4 } (fun i j => i * j) 4 1 = some 4 ∧
    aunord s { interp := 3, extrap := 4 } (fun i j => i * j) 4 4 = some (16 - 8 / 2 ^ 26) := by
  decide +kernel

theorem row4_snd {ni j1 j2 : ℤ} {z : ℤ → ℤ → ℚ} {im i ip ipp j : ℤ} {r : ℚ × ℚ × ℚ × ℚ}
    (h : row4 ni j1 j2 z im i ip ipp j = some r) : r.2.1 = z i j := by
  simp only [row4, Option.bind_eq_bind, Option.bind_eq_some_iff] at h
  obtain ⟨a, _, b, hb, c, _, d, _, e⟩ := h
  simp only [Option.pure_def, Option.some.injEq] at e
  rw [← e]
  simp only [rd] at hb
  split_ifs at hb with h1
  simpa using hb.symm

/-- The irregular cubic correction at a column of the grid, where it is defined. -/
theorem irgdint3wnnc_node (ni a wrap : ℤ) (ax ay : ℤ → ℚ) (z : ℤ → ℤ → ℚ) (i : ℤ)
    (hw : wrap = 1 ∨ wrap = 2) (h1 : 1 ≤ i) (h2 : i ≤ ni - 2 + wrap) (t : ℤ) (ht : t = 1 ∨ t = 2) (v : ℚ)
    (h : irgdint3wnnc ni a (a + 3) wrap ax ay z i (a + t : ℤ) = some v) : v = z i (a + t) := by
  have hi : min (ni - 2 + wrap) (max 1 (max (2 - wrap) (ifix (i : ℚ)))) = i := by
    rw [ifix_int]; omega
  have hj : min (a + 3 - 2) (max (a + 1) (ifix ((a + t : ℤ) : ℚ))) = a + 1 := by rw [ifix_int]; omega
  simp only [irgdint3wnnc, hi, hj, Option.bind_eq_bind, Option.bind_eq_some_iff] at h
  obtain ⟨⟨c, x⟩, -, y4, -, h⟩ := h
  simp only at h
  split_ifs at h with hd
  simp only [Bool.and_eq_true, distinct4, decide_eq_true_eq] at hd
  obtain ⟨⟨d1, d2, d3, -⟩, e1, e2, e3, -⟩ := hd
  simp only [binewton, Option.bind_eq_bind, Option.bind_eq_some_iff] at h
  obtain ⟨y1, g1, y2, g2, y3, g3, r1, q1, r2, q2, r3, q3, r4, q4, h⟩ := h
  have k : ∀ {b : ℤ} {w : ℚ}, rd1 a (a + 3) ay b = some w → w = ay b := by
    intro b w hb
    simp only [rd1] at hb
    split_ifs at hb
    simpa using hb.symm
  rw [← k g1, ← k g2, ← k g3] at h
  rw [← k g1, ← k g2] at e1
  rw [← k g1, ← k g3] at e2
  rw [← k g2, ← k g3] at e3
  simp only [sub_self, mul_zero, add_zero, newton_second d1, row4_snd q1, row4_snd q2, row4_snd q3,
    row4_snd q4, Option.pure_def, Option.some.injEq] at h
  rcases ht with rfl | rfl
  · rw [show (((a + 1 : ℤ) : ℚ) - ((a + 1 : ℤ) : ℚ)) = 0 by ring, mul_zero, add_zero,
      newton_second e1] at h
    exact h.symm
  · rw [show (((a + 2 : ℤ) : ℚ) - ((a + 1 : ℤ) : ℚ)) = 1 by push_cast; ring, mul_one,
      show y2 + (y3 - y2) = y3 by ring, newton_third e1 e2 e3] at h
    rw [← h]; congr 1; ring

/-- **C113** (cubic, irregular axes).  For Z and G grids: at a column of the grid the corrections, where
they are defined, reproduce the row before the last one, the last row and the first row. -/
theorem C113_cubic_irregular (s : Src) (o : Opt) (zin : ℤ → ℤ → ℚ) (i : ℤ) (v : ℚ) (ho : o.interp = 3)
    (ht : s.typ = 'Z' ∨ s.typ = 'G') (he : s.ext = 1 ∨ s.ext = 2)
    (h1 : 1 ≤ i) (h2 : i ≤ s.ni - 2 + s.ext) :
    (aunord s o zin i (s.j2 - 1) = some v → v = zin i (s.j2 - 1)) ∧
    (aunord s o zin i s.j2 = some v → v = zin i s.j2) ∧
    (ausud s o zin i s.j1 = some v → v = zin i s.j1) := by
  have t1 : (s.typ = 'Z' ∨ s.typ = 'E' ∨ s.typ = 'G') := by tauto
  have key : ∀ t : ℤ, (t = 1 ∨ t = 2) → aunord s o zin i (s.j2 - 2 + t : ℤ) = some v →
      v = zin i (s.j2 - 2 + t) := by
    intro t ht h
    simp only [aunord, Option.bind_eq_bind, Option.bind_eq_some_iff] at h
    obtain ⟨p, -, h⟩ := h
    split_ifs at h
    obtain ⟨ay, -, h⟩ := Option.bind_eq_some_iff.1 h
    rw [show s.j2 + 1 = s.j2 - 2 + 3 by ring] at h
    have := irgdint3wnnc_node _ _ _ _ _ _ i he h1 h2 t ht v h
    rw [this]
    simp only [fillnpole]
    rw [if_neg (by omega)]
    congr 1; ring
  refine ⟨fun h => ?_, fun h => ?_, fun h => ?_⟩
  · have := key 1 (Or.inl rfl)
    rw [show ((s.j2 - 2 + 1 : ℤ) : ℚ) = s.j2 - 1 by push_cast; ring, show s.j2 - 2 + 1 = s.j2 - 1 by ring] at this
    exact this h
  · have := key 2 (Or.inr rfl)
    rw [show s.j2 - 2 + 2 = s.j2 by ring] at this
    exact this h
  · simp only [ausud, Option.bind_eq_bind, Option.bind_eq_some_iff] at h
    obtain ⟨p, -, h⟩ := h
    split_ifs at h
    obtain ⟨ay, -, h⟩ := Option.bind_eq_some_iff.1 h
    rw [show s.j1 + 2 = s.j1 - 1 + 3 by ring, show (s.j1 : ℚ) = ((s.j1 - 1 + 1 : ℤ) : ℚ) by push_cast; ring] at h
    have := irgdint3wnnc_node _ _ _ _ _ _ i he h1 h2 1 (Or.inl rfl) v h
    rw [this]
    simp only [fillspole]
    rw [if_neg (by omega)]
    congr 1; ring

/-- A global Gaussian-like grid of 4 by 4 where the corrections are defined. -/
example :
    let s : Src := { typ := 'G', ni := 4, nj := 4, j1 := 1, j2 := 4, ext := 2, ax := fun i => 90 * (i - 1), aym := fun k => 40 * k - 60, ypn := 9 / 2, yps := 1 / 2 }
    aunord s { interp := 3, extrap := 4 } (fun i j => i * j) 4 4 = some 16 ∧
    aunord s { interp := 3, extrap := 4 } (fun i j => i * j) 2 3 = some 6 ∧
    ausud s { interp := 3, extrap := 4 } (fun i j => i * j) 3 1 = some 3 := by decide +kernel

/-! ### What the corrections get wrong -/

/-- With the averages (degrees 4 and 5) there is no case for the points near the poles: they get
memory that was never written. -/
theorem C113_average_witness (s : Src) (o : Opt) (zin : ℤ → ℤ → ℚ) (n : ℕ) (x y : ℕ → ℚ)
    (zout : ℕ → Option ℚ) (hs : mayLeave s = false) (h1 : s.j1 = 1) (h2 : 2 ≤ s.j2)
    (hv : o.vecteur = false) (ho : o.interp = 4 ∨ o.interp = 5) (k : ℕ) (hk : k < n)
    (hn : (s.j2 : ℚ) - 1 ≤ y k ∨ y k < 2) (hp : 1 / 1000 ≤ |y k - s.ypn| ∧ 1 / 1000 ≤ |y k - s.yps|) :
    (corrval s o zin n x y zout).2 k = none := by
  rw [((C113_points s o zin n x y zout hs h1 h2).2.2 hv k).2 hk, if_neg (not_lt.2 hp.2),
    if_neg (not_lt.2 hp.1)]
  have a : aunord s o zin (x k) (y k) = none := by
    simp only [aunord, Option.bind_eq_bind]
    rcases poleval s fun i => zin i s.j2 with _ | p
    · rfl
    · rcases ho with ho | ho <;> simp [ho]
  have b : ausud s o zin (x k) (y k) = none := by
    simp only [ausud, Option.bind_eq_bind]
    rcases poleval s fun i => zin i s.j1 with _ | p
    · rfl
    · rcases ho with ho | ho <;> simp [ho]
  rw [a, b]
  rcases hn with h | h
  · by_cases h3 : y k < 2
    · rw [if_pos h3]
    · rw [if_neg h3, if_pos h]
  · rw [if_pos h]

/-- The pole of an A grid is half a row beyond its last row, the corrections put it a whole row beyond:
the value jumps at the pole.  One value of 1 among zeros in the last row: 1/4 at the pole, more than 5/8
next to it, on the meridian of that value. -/
theorem C113_jump_witness :
    let s : Src := { typ := 'A', ni := 4, nj := 4, j1 := 1, j2 := 4, ext := 2, ypn := 9 / 2, yps := 1 / 2 }
    let z : ℤ → ℤ → ℚ := fun i _ => if i = 1 then 1 else 0
    let r := corrval s { interp := 1, extrap := 4 } z 2 (fun _ => 1)
      (fun k => if k = 0 then 9 / 2 else 9 / 2 - 1 / 900) (fun _ => none)
    mayLeave s = false ∧ r.2 0 = some (1 / 4) ∧ r.2 1 = some (1 - 3 / 4 * (1 / 2 - 1 / 900)) := by
  decide +kernel

/-- The first meridian of a B grid is repeated and counts twice in the value of the pole: the row 3, 0, 0,
3 has mean 1 around the circle, the pole gets 3/2. -/
theorem C113_repeated_witness :
    poleval { typ := 'B', ni := 4, nj := 4, j1 := 1, j2 := 4, ext := 1, ypn := 4, yps := 1 }
      (fun i => if i = 1 ∨ i = 4 then 3 else 0) = some (3 / 2) := by decide +kernel

/-- The latitudes of an expanded northern Gaussian grid start at index 0 with row `j1`, but the
correction of the north reads them with the index `j2`: it takes those around the equator. -/
theorem C113_north_latitudes_witness :
    let s : Src := { typ := 'G', ni := 4, nj := 4, j1 := -3, j2 := 4, ext := 2, ax := fun i => 90 * (i - 1), aym := fun k => 20 * k - 70, ypn := 9 / 2, yps := -7 / 2 }
    aynorth s = some (-50, -30, -10, 90) ∧ s.ay 2 = 30 ∧ s.ay 3 = 50 ∧ s.ay 4 = 70 := by decide +kernel

/-- On an expanded northern grid the truncation toward zero leaves the points between the first and
second rows out of the correction of the south. -/
theorem C113_truncation_witness :
    let s : Src := { typ := 'A', ni := 4, nj := 4, j1 := -3, j2 := 4, ext := 2, ypn := 9 / 2, yps := -7 / 2 }
    south s (-5 / 2) = false ∧ south s (-3) = true ∧ (s.j1 : ℚ) < -5 / 2 ∧ (-5 / 2 : ℚ) < s.j1 + 1 := by
  decide +kernel

/-- A Z grid with 358 degrees or more of longitude is taken for global whatever its latitudes: a band from
10 to 40 degrees north.  A point at 80 degrees north is not extrapolated, it gets a correction. -/
theorem C113_band_witness :
    let s : Src := { typ := 'Z', ref := 'L', ni := 5, nj := 4, j1 := 1, j2 := 4, ext := 0, ax := fun i => 358 / 4 * (i - 1), aym := fun k => 10 * (k + 1), ypn := 9, yps := -9 }
    let r := corrval s { interp := 0, extrap := 6, valeur := -1 } (fun i j => i * j) 1 (fun _ => 2) (fun _ => 8)
      (fun _ => none)
    mayLeave s = false ∧ r.1 = 0 ∧ r.2 0 = some 12 := by decide +kernel

end Verif.EzZones
