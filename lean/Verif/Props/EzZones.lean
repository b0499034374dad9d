import Verif.EzZones
import Verif.Props.EzInterp
import Verif.Props.EzLocate

/-! # Expansion of hemispheric grids, extrapolation and corrections at the poles -/

namespace Verif.EzZones
open Verif.EzInterp

/-! ## C111: expansion -/

theorem rows_miss (ni lo : ℤ) (f : ℤ → ℤ) (s : ℚ) (zi : ℤ → ℤ → ℚ) (n : ℕ) (z : ℤ → ℤ → ℚ) (i j : ℤ)
    (h : ∀ k : ℕ, k < n → f (lo + k) ≠ j) : rows ni lo f s zi n z i j = z i j := by
  induction n with
  | zero => rfl
  | succ n ih =>
    have h1 := h n (by omega)
    simp only [rows, setRow, if_neg (show ¬ (j = f (lo + n) ∧ 1 ≤ i ∧ i ≤ ni) from
      fun e => h1 e.1.symm)]
    exact ih fun k hk => h k (by omega)

theorem rows_hit (ni lo : ℤ) (f : ℤ → ℤ) (hf : Function.Injective f) (s : ℚ) (zi : ℤ → ℤ → ℚ) (n : ℕ)
    (z : ℤ → ℤ → ℚ) (i : ℤ) (k : ℕ) (hk : k < n) (h1 : 1 ≤ i) (h2 : i ≤ ni) :
    rows ni lo f s zi n z i (f (lo + k)) = s * zi i (lo + k) := by
  induction n with
  | zero => omega
  | succ n ih =>
    by_cases e : k = n
    · rw [e]; simp only [rows, setRow, h1, h2, and_self, if_true]
    · have h3 : ¬ (f (lo + k) = f (lo + n) ∧ 1 ≤ i ∧ i ≤ ni) := fun h => by
        have := hf h.1; omega
      simp only [rows, setRow, if_neg h3]
      exact ih (by omega)

theorem rows_hit' (ni lo : ℤ) (f : ℤ → ℤ) (hf : Function.Injective f) (s : ℚ) (zi : ℤ → ℤ → ℚ) (n : ℕ)
    (z : ℤ → ℤ → ℚ) (i j m : ℤ) (hj : f m = j) (h3 : lo ≤ m) (h4 : m < lo + n) (h1 : 1 ≤ i)
    (h2 : i ≤ ni) : rows ni lo f s zi n z i j = s * zi i m := by
  obtain ⟨k, hk⟩ : ∃ k : ℕ, m = lo + k := ⟨(m - lo).toNat, by omega⟩
  rw [← hj, hk]
  exact rows_hit ni lo f hf s zi n z i k (by omega) h1 h2

/-- The rows of an expanded grid, one by one. -/
theorem xpn_rows (typ : EzLocate.Typ) (ni : ℤ) (nj : ℕ) (ig1 sym : ℤ) (zi z : ℤ → ℤ → ℚ) (i j : ℤ)
    (ht : typ = .A ∨ typ = .G ∨ typ = .B) (hg : ig1 = 1 ∨ ig1 = 2) (h1 : 1 ≤ i) (h2 : i ≤ ni) :
    (1 ≤ j → j ≤ nj → xpnsrcgd typ ni nj ig1 sym zi z i j = zi i j) ∧
    (typ ≠ .B → ig1 = 1 → -nj + 1 ≤ j → j ≤ 0 →
      xpnsrcgd typ ni nj ig1 sym zi z i j = sign sym * zi i (1 - j)) ∧
    (typ ≠ .B → ig1 = 2 → (nj : ℤ) + 1 ≤ j → j ≤ 2 * nj →
      xpnsrcgd typ ni nj ig1 sym zi z i j = sign sym * zi i (2 * nj + 1 - j)) ∧
    (typ = .B → ig1 = 1 → -nj + 2 ≤ j → j ≤ 0 →
      xpnsrcgd typ ni nj ig1 sym zi z i j = sign sym * zi i (2 - j)) ∧
    (typ = .B → ig1 = 2 → (nj : ℤ) + 1 ≤ j → j ≤ 2 * nj - 1 →
      xpnsrcgd typ ni nj ig1 sym zi z i j = sign sym * zi i (2 * nj - j)) := by
  have c12 : ¬ ((1 : ℤ) = 2) := by decide
  have c21 : ¬ ((2 : ℤ) = 1) := by decide
  have i0 : Function.Injective (fun j : ℤ => j) := fun a b h => h
  have i1 : Function.Injective (fun j : ℤ => -j + 1) := fun a b h => by simp only at h; omega
  have i2 : Function.Injective (fun j : ℤ => (nj : ℤ) + j) := fun a b h => by simp only at h; omega
  have i3 : Function.Injective (fun j : ℤ => 2 - j) := fun a b h => by simp only at h; omega
  have i4 : Function.Injective (fun j : ℤ => (nj : ℤ) + j - 1) := fun a b h => by simp only at h; omega
  have base : ∀ zz : ℤ → ℤ → ℚ, 1 ≤ j → j ≤ nj → rows ni 1 (fun j => j) 1 zi nj zz i j = zi i j := by
    intro zz a b
    rw [rows_hit' ni 1 _ i0 1 zi nj zz i j j rfl a (by omega) h1 h2, one_mul]
  rcases ht with rfl | rfl | rfl <;> rcases hg with rfl | rfl <;>
    simp only [xpnsrcgd, xpngdag2, xpngdb2, if_true, if_neg c12, if_neg c21] <;>
    refine ⟨fun a b => ?_, fun h g a b => ?_, fun h g a b => ?_, fun h g a b => ?_, fun h g a b => ?_⟩ <;>
    first
    | exact absurd g (by decide)
    | exact absurd h (by decide)
    | (rw [rows_miss]
       · exact base _ a b
       · intro k hk; try dsimp only
         omega)
    | (rw [rows_hit' ni 1 _ i1 _ zi nj _ i j (1 - j) (by omega) (by omega) (by omega) h1 h2])
    | (rw [rows_hit' ni 1 _ i2 _ _ nj _ i j (j - nj) (by omega) (by omega) (by omega) h1 h2]
       congr 2; omega)
    | (rw [rows_hit' ni 2 _ i3 _ zi (nj - 1) _ i j (2 - j) (by omega) (by omega) (by omega) h1 h2])
    | (rw [rows_hit' ni 2 _ i4 _ _ (nj - 1) _ i j (j - nj + 1) (by omega) (by omega) (by omega) h1 h2]
       congr 2; omega)

/-- **C111** (latitudes).  Take a hemispheric grid of type A or B with the rows `ez_xpncof` gives it,
and any expanded row: the row has the values of the source row at the same distance from the equator.
The values keep their sign where the row is that source row itself, and are multiplied by -1 on the
other side of the equator when the option `symmetry` is off.  The latitudes are those of `gdllfxy`. -/
theorem C111_latitude (g : EzLocate.Grille) (sym : ℤ) (zi z : ℤ → ℤ → ℚ) (ht : g.typ = .A ∨ g.typ = .B)
    (hni : 2 ≤ g.ni) (hnj : 2 ≤ g.nj) (hg : g.ig1 = 1 ∨ g.ig1 = 2) (i j : ℤ) (h1 : 1 ≤ i)
    (h2 : i ≤ g.ni) (h3 : firstRow g.typ g.ig1 g.nj ≤ j) (h4 : j ≤ EzLocate.j2 g) :
    ∃ (m : ℤ) (lat latm lon lonm : ℚ), 1 ≤ m ∧ m ≤ g.nj ∧
      EzLocate.gdllfxy g 1 j = some (lat, lon) ∧ EzLocate.gdllfxy g 1 m = some (latm, lonm) ∧
      |lat| = |latm| ∧
      xpnsrcgd g.typ g.ni g.nj g.ig1 sym zi z i j =
        (if lat = latm then 1 else if sym = 0 then -1 else 1) * zi i m := by
  have hX := xpn_rows g.typ g.ni g.nj g.ig1 sym zi z i j (by tauto) hg h1 h2
  have n0 : (g.nj : ℚ) ≠ 0 := by have : g.nj ≠ 0 := by omega
                                 exact_mod_cast this
  have n1 : (g.nj : ℚ) - 1 ≠ 0 := by
    have h : (2 : ℚ) ≤ g.nj := by exact_mod_cast hnj
    intro h'; linarith
  by_cases hin : 1 ≤ j ∧ j ≤ g.nj
  · have hs : ∃ lat lon, EzLocate.gdllfxy g 1 j = some (lat, lon) := by
      rcases ht with ht | ht <;> rcases hg with hg | hg <;>
        simp only [EzLocate.gdllfxy, EzLocate.gdllfxyWith, ht, EzLocate.defxg, hg,
          if_neg (show ¬ (g.ni = 0 ∨ g.nj = 0) by omega), if_neg (show ¬ (g.ni ≤ 1 ∨ g.nj ≤ 1) by omega)] <;>
        exact ⟨_, _, rfl⟩
    obtain ⟨lat, lon, hl⟩ := hs
    exact ⟨j, lat, lat, lon, lon, hin.1, hin.2, hl, hl, rfl, by
      rw [hX.1 hin.1 hin.2, if_pos rfl, one_mul]⟩
  · rcases ht with ht | ht <;> rcases hg with hg | hg <;>
      simp only [firstRow, EzLocate.j2, ht, hg, if_true, if_neg (show ¬ ((1 : ℤ) = 2) by decide),
        if_neg (show ¬ ((2 : ℤ) = 1) by decide)] at h3 h4
    all_goals
      have n2 : ¬ (g.ni = 0 ∨ g.nj = 0) := by omega
      have n3 : ¬ (g.ni ≤ 1 ∨ g.nj ≤ 1) := by omega
      have gl : ∀ y : ℚ, ∃ lon, EzLocate.gdllfxy g 1 y = some
          ((y - 1) * ((EzLocate.defxg g).getD ⟨0, 0, 0, 0⟩).dlat +
            ((EzLocate.defxg g).getD ⟨0, 0, 0, 0⟩).swlat, lon) := by
        intro y
        simp only [EzLocate.gdllfxy, EzLocate.gdllfxyWith, ht, EzLocate.defxg, hg, if_neg n2, if_neg n3,
          if_true, if_neg (show ¬ ((1 : ℤ) = 0) by decide), if_neg (show ¬ ((2 : ℤ) = 0) by decide),
          if_neg (show ¬ ((2 : ℤ) = 1) by decide), Option.getD_some]
        exact ⟨_, rfl⟩
      simp only [EzLocate.defxg, ht, hg, if_neg n2, if_neg n3, if_true,
        if_neg (show ¬ ((1 : ℤ) = 0) by decide), if_neg (show ¬ ((2 : ℤ) = 0) by decide),
        if_neg (show ¬ ((2 : ℤ) = 1) by decide), Option.getD_some] at gl
    · obtain ⟨lo1, e1⟩ := gl j
      obtain ⟨lo2, e2⟩ := gl ((1 - j : ℤ))
      have hneg : ((j : ℚ) - 1) * (90 / g.nj) + 1 / 2 * (90 / g.nj) =
          -((((1 - j : ℤ) : ℚ) - 1) * (90 / g.nj) + 1 / 2 * (90 / g.nj)) := by push_cast; ring
      have hne : ((j : ℚ) - 1) * (90 / g.nj) + 1 / 2 * (90 / g.nj) ≠
          ((1 - j : ℤ) : ℚ) * (90 / g.nj) - (90 / g.nj) + 1 / 2 * (90 / g.nj) := by
        intro h
        have h' : (2 * (j : ℚ) - 1) * (90 / g.nj) = 0 := by push_cast at h; linarith
        rcases mul_eq_zero.1 h' with h' | h'
        · have : (2 * j - 1 : ℤ) = 0 := by exact_mod_cast h'
          omega
        · exact absurd h' (div_ne_zero (by norm_num) n0)
      refine ⟨1 - j, _, _, _, _, by omega, by omega, e1, e2, by rw [hneg, abs_neg], ?_⟩
      rw [if_neg (fun h => hne (by rw [h]; ring))]
      have := hX.2.1 (by rw [ht]; decide) hg (by omega) (by omega)
      rw [ht] at this ⊢
      rw [this]; rfl
    · obtain ⟨lo1, e1⟩ := gl j
      obtain ⟨lo2, e2⟩ := gl ((2 * g.nj + 1 - j : ℤ))
      have hq : (90 : ℚ) / g.nj * g.nj = 90 := div_mul_cancel₀ 90 n0
      have hneg : ((j : ℚ) - 1) * (90 / g.nj) + (-90 + 1 / 2 * (90 / g.nj)) =
          -((((2 * g.nj + 1 - j : ℤ) : ℚ) - 1) * (90 / g.nj) + (-90 + 1 / 2 * (90 / g.nj))) := by
        push_cast; linear_combination 2 * hq
      refine ⟨2 * g.nj + 1 - j, _, _, _, _, by omega, by omega, e1, e2, by rw [hneg, abs_neg], ?_⟩
      rw [if_neg (fun h => by
        have h' : (2 * (j : ℚ) - 2 * g.nj - 1) * (90 / g.nj) = 0 := by
          push_cast at h; linear_combination h
        rcases mul_eq_zero.1 h' with h' | h'
        · have : (2 * j - 2 * g.nj - 1 : ℤ) = 0 := by exact_mod_cast h'
          omega
        · exact absurd h' (div_ne_zero (by norm_num) n0))]
      have := hX.2.2.1 (by rw [ht]; decide) hg (by omega) (by omega)
      rw [ht] at this ⊢
      rw [this]; rfl
    · obtain ⟨lo1, e1⟩ := gl j
      obtain ⟨lo2, e2⟩ := gl ((2 - j : ℤ))
      have hneg : ((j : ℚ) - 1) * (90 / (g.nj - 1)) + 0 =
          -((((2 - j : ℤ) : ℚ) - 1) * (90 / (g.nj - 1)) + 0) := by push_cast; ring
      refine ⟨2 - j, _, _, _, _, by omega, by omega, e1, e2, by rw [hneg, abs_neg], ?_⟩
      rw [if_neg (fun h => by
        have h' : (2 * (j : ℚ) - 2) * (90 / (g.nj - 1)) = 0 := by
          push_cast at h; linear_combination h
        rcases mul_eq_zero.1 h' with h' | h'
        · have : (2 * j - 2 : ℤ) = 0 := by exact_mod_cast h'
          omega
        · exact absurd h' (div_ne_zero (by norm_num) n1))]
      have := hX.2.2.2.1 ht hg (by omega) (by omega)
      rw [ht] at this ⊢
      rw [this]; rfl
    · obtain ⟨lo1, e1⟩ := gl j
      obtain ⟨lo2, e2⟩ := gl ((2 * g.nj - j : ℤ))
      have hq : (90 : ℚ) / (g.nj - 1) * (g.nj - 1) = 90 := div_mul_cancel₀ 90 n1
      have hneg : ((j : ℚ) - 1) * (90 / (g.nj - 1)) + -90 =
          -((((2 * g.nj - j : ℤ) : ℚ) - 1) * (90 / (g.nj - 1)) + -90) := by
        push_cast; linear_combination 2 * hq
      refine ⟨2 * g.nj - j, _, _, _, _, by omega, by omega, e1, e2, by rw [hneg, abs_neg], ?_⟩
      rw [if_neg (fun h => by
        have h' : (2 * (j : ℚ) - 2 * g.nj) * (90 / (g.nj - 1)) = 0 := by
          push_cast at h; linear_combination h
        rcases mul_eq_zero.1 h' with h' | h'
        · have : (2 * j - 2 * g.nj : ℤ) = 0 := by exact_mod_cast h'
          omega
        · exact absurd h' (div_ne_zero (by norm_num) n1))]
      have := hX.2.2.2.2 ht hg (by omega) (by omega)
      rw [ht] at this ⊢
      rw [this]; rfl

example : xpnsrcgd .A 2 2 1 0 (fun i j => 10 * i + j) (fun _ _ => 7) 2 (-1) = -22 ∧
    xpnsrcgd .B 2 2 2 1 (fun i j => 10 * i + j) (fun _ _ => 7) 2 3 = 21 ∧
    firstRow .A 1 2 = -1 ∧ EzLocate.gdllfxy ⟨.A, 2, 2, 1, 0, 0, 0, [], [], ⟨0, 0, 1, 1⟩⟩ 1 (-1) =
      some (-135 / 2, 0) := by decide +kernel

/-- **C111** (mirror and extent).  For types A, B and G the expansion writes every cell of the rows
`j1..j2` (none keeps its old content) and no cell outside; the source rows are copied unchanged and
row `j1 + j2 - j` has the values of the source row `j`, with the sign of the option, except for the
row on the equator of type B, which is its own mirror. -/
theorem C111_mirror (g : EzLocate.Grille) (sym : ℤ) (zi z z' : ℤ → ℤ → ℚ)
    (ht : g.typ = .A ∨ g.typ = .G ∨ g.typ = .B) (hnj : 1 ≤ g.nj) (hg : g.ig1 = 1 ∨ g.ig1 = 2)
    (i : ℤ) (h1 : 1 ≤ i) (h2 : i ≤ g.ni) :
    (∀ j : ℤ, 1 ≤ j → j ≤ g.nj →
      xpnsrcgd g.typ g.ni g.nj g.ig1 sym zi z i j = zi i j ∧
      (firstRow g.typ g.ig1 g.nj + EzLocate.j2 g ≠ 2 * j →
        xpnsrcgd g.typ g.ni g.nj g.ig1 sym zi z i (firstRow g.typ g.ig1 g.nj + EzLocate.j2 g - j) =
          (if sym = 0 then -1 else 1) * zi i j)) ∧
    (∀ j, firstRow g.typ g.ig1 g.nj ≤ j → j ≤ EzLocate.j2 g →
      xpnsrcgd g.typ g.ni g.nj g.ig1 sym zi z i j = xpnsrcgd g.typ g.ni g.nj g.ig1 sym zi z' i j) ∧
    (∀ j, j < firstRow g.typ g.ig1 g.nj ∨ EzLocate.j2 g < j →
      xpnsrcgd g.typ g.ni g.nj g.ig1 sym zi z i j = z i j) := by
  have c12 : ¬ ((1 : ℤ) = 2) := by decide
  have c21 : ¬ ((2 : ℤ) = 1) := by decide
  have key : ∀ zz : ℤ → ℤ → ℚ, ∀ j : ℤ, 1 ≤ j → j ≤ g.nj →
      xpnsrcgd g.typ g.ni g.nj g.ig1 sym zi zz i j = zi i j ∧
      (firstRow g.typ g.ig1 g.nj + EzLocate.j2 g ≠ 2 * j →
        xpnsrcgd g.typ g.ni g.nj g.ig1 sym zi zz i (firstRow g.typ g.ig1 g.nj + EzLocate.j2 g - j) =
          (if sym = 0 then -1 else 1) * zi i j) := by
    intro zz j a b
    refine ⟨(xpn_rows g.typ g.ni g.nj g.ig1 sym zi zz i j ht hg h1 h2).1 a b, fun hne => ?_⟩
    have hX := xpn_rows g.typ g.ni g.nj g.ig1 sym zi zz i
      (firstRow g.typ g.ig1 g.nj + EzLocate.j2 g - j) ht hg h1 h2
    rcases ht with ht | ht | ht <;> rcases hg with hg | hg <;>
      simp only [firstRow, EzLocate.j2, ht, hg, if_true, if_neg c12, if_neg c21] at hX hne ⊢
    · rw [hX.2.1 (by decide) trivial (by omega) (by omega)]
      simp only [sign]; congr 2; omega
    · rw [hX.2.2.1 (by decide) trivial (by omega) (by omega)]
      simp only [sign]; congr 2; omega
    · rw [hX.2.1 (by decide) trivial (by omega) (by omega)]
      simp only [sign]; congr 2; omega
    · rw [hX.2.2.1 (by decide) trivial (by omega) (by omega)]
      simp only [sign]; congr 2; omega
    · rw [hX.2.2.2.1 trivial trivial (by omega) (by omega)]
      simp only [sign]; congr 2; omega
    · rw [hX.2.2.2.2 trivial trivial (by omega) (by omega)]
      simp only [sign]; congr 2; omega
  refine ⟨key z, fun j a b => ?_, fun j hj => ?_⟩
  · by_cases hin : 1 ≤ j ∧ j ≤ g.nj
    · rw [(key z j hin.1 hin.2).1, (key z' j hin.1 hin.2).1]
    · have hm : 1 ≤ firstRow g.typ g.ig1 g.nj + EzLocate.j2 g - j ∧
          firstRow g.typ g.ig1 g.nj + EzLocate.j2 g - j ≤ g.nj ∧
          firstRow g.typ g.ig1 g.nj + EzLocate.j2 g ≠
            2 * (firstRow g.typ g.ig1 g.nj + EzLocate.j2 g - j) := by
        rcases ht with ht | ht | ht <;> rcases hg with hg | hg <;>
          simp only [firstRow, EzLocate.j2, ht, hg, if_true, if_neg c12, if_neg c21] at a b ⊢ <;>
          omega
      have e : j = firstRow g.typ g.ig1 g.nj + EzLocate.j2 g -
          (firstRow g.typ g.ig1 g.nj + EzLocate.j2 g - j) := by omega
      have k1 := (key z _ hm.1 hm.2.1).2 hm.2.2
      have k2 := (key z' _ hm.1 hm.2.1).2 hm.2.2
      rw [← e] at k1 k2
      rw [k1, k2]
  · rcases ht with ht | ht | ht <;> rcases hg with hg | hg <;>
      simp only [firstRow, EzLocate.j2, ht, hg, if_true, if_neg c12, if_neg c21] at hj <;>
      simp only [xpnsrcgd, xpngdag2, xpngdb2, ht, hg, if_true, if_neg c12, if_neg c21] <;>
      (rw [rows_miss, rows_miss] <;> intro k hk <;> (try dsimp only) <;> omega)

example : xpnsrcgd .G 3 2 2 0 (fun i j => 10 * i + j) (fun _ _ => 7) 3 4 = -31 ∧
    xpnsrcgd .B 3 2 1 0 (fun i j => 10 * i + j) (fun _ _ => 7) 3 1 = 31 ∧
    EzLocate.j2 ⟨.G, 3, 2, 2, 0, 0, 0, [], [], ⟨0, 0, 1, 1⟩⟩ = 4 := by decide +kernel

/-! ## C112: points outside the source grid -/

theorem paste_eq (v : ℕ → Option ℚ) (l : List ℕ) (z : ℕ → Option ℚ) (m : ℕ) :
    paste v l z m = if m ∈ l then v m else z m := by
  induction l generalizing z with
  | nil => simp [paste]
  | cons k l ih =>
    rw [paste, ih]
    by_cases h1 : m ∈ l
    · simp [h1]
    · by_cases h2 : m = k
      · subst h2; simp [h1]
      · simp [h1, h2]

theorem mem_zone (n : ℕ) (p : ℕ → Bool) (k : ℕ) : k ∈ zone n p ↔ k < n ∧ p k = true := by
  simp [zone]

theorem zone_nil (n : ℕ) (p : ℕ → Bool) : zone n p = [] ↔ ¬ ∃ k, k < n ∧ p k = true := by
  constructor
  · rintro h ⟨k, hk⟩
    have := (mem_zone n p k).2 hk
    rw [h] at this; simp at this
  · intro h
    rw [List.eq_nil_iff_forall_not_mem]
    exact fun k hk => h ⟨k, (mem_zone n p k).1 hk⟩

theorem ifix_lt_one (q : ℚ) : ifix q < 1 ↔ q < 1 := by
  unfold ifix
  split_ifs with h
  · rw [Int.floor_lt]; norm_num
  · have : q < 1 := by linarith
    have h2 : ⌈q⌉ ≤ 0 := Int.ceil_le.2 (by push_cast; linarith)
    exact ⟨fun _ => this, fun _ => by omega⟩

theorem ifix_gt (q : ℚ) (n : ℤ) (hn : 0 ≤ n) : n < ifix q ↔ (n : ℚ) + 1 ≤ q := by
  unfold ifix
  split_ifs with h
  · rw [show n < ⌊q⌋ ↔ n + 1 ≤ ⌊q⌋ from Int.lt_iff_add_one_le, Int.le_floor]; push_cast; rfl
  · have hn' : (0 : ℚ) ≤ n := by exact_mod_cast hn
    have h2 : ⌈q⌉ ≤ 0 := Int.ceil_le.2 (by push_cast; linarith)
    constructor
    · intro h3; omega
    · intro h3; linarith

/-- A position is in the zone `DEHORS` exactly when it is half a cell or more away from the grid. -/
theorem outside_iff (s : Src) (x y : ℚ) (hi : 1 ≤ s.ni) (hj : 1 ≤ s.nj) :
    outside s x y = true ↔
      (x < 1 / 2 ∨ y < 1 / 2 ∨ (s.ni : ℚ) + 1 / 2 ≤ x ∨ (s.nj : ℚ) + 1 / 2 ≤ y) := by
  simp only [outside, decide_eq_true_eq, gt_iff_lt, ifix_lt_one, ifix_gt _ s.ni (by omega),
    ifix_gt _ s.nj (by omega)]
  constructor <;> rintro (h | h | h | h)
  · left; linarith
  · right; left; linarith
  · right; right; left; linarith
  · right; right; right; linarith
  · left; linarith
  · right; left; linarith
  · right; right; left; linarith
  · right; right; right; linarith

theorem mem_cells (s : Src) (zin : ℤ → ℤ → ℚ) (v : ℚ) :
    v ∈ cells s zin ↔ ∃ i j, 1 ≤ i ∧ i ≤ s.ni ∧ s.j1 ≤ j ∧ j ≤ s.j2 ∧ zin i j = v := by
  simp only [cells, List.mem_flatMap, List.mem_map, List.mem_range]
  constructor
  · rintro ⟨b, hb, a, ha, e⟩
    exact ⟨1 + a, s.j1 + b, by omega, by omega, by omega, by omega, e⟩
  · rintro ⟨i, j, h1, h2, h3, h4, e⟩
    refine ⟨(j - s.j1).toNat, by omega, (i - 1).toNat, by omega, ?_⟩
    rw [← e]; congr 1 <;> omega

theorem foldl_max (l : List ℚ) (a : ℚ) :
    (l.foldl max a = a ∨ l.foldl max a ∈ l) ∧ a ≤ l.foldl max a ∧ ∀ v ∈ l, v ≤ l.foldl max a := by
  induction l generalizing a with
  | nil => simp
  | cons b l ih =>
    obtain ⟨h1, h2, h3⟩ := ih (max a b)
    simp only [List.foldl_cons, List.mem_cons]
    refine ⟨?_, le_trans (le_max_left a b) h2, ?_⟩
    · rcases h1 with h1 | h1
      · rw [h1]
        rcases max_choice a b with h | h <;> rw [h]
        · left; rfl
        · right; left; rfl
      · right; right; exact h1
    · rintro v (rfl | hv)
      · exact le_trans (le_max_right a v) h2
      · exact h3 v hv

theorem foldl_min (l : List ℚ) (a : ℚ) :
    (l.foldl min a = a ∨ l.foldl min a ∈ l) ∧ l.foldl min a ≤ a ∧ ∀ v ∈ l, l.foldl min a ≤ v := by
  induction l generalizing a with
  | nil => simp
  | cons b l ih =>
    obtain ⟨h1, h2, h3⟩ := ih (min a b)
    simp only [List.foldl_cons, List.mem_cons]
    refine ⟨?_, le_trans h2 (min_le_left a b), ?_⟩
    · rcases h1 with h1 | h1
      · rw [h1]
        rcases min_choice a b with h | h <;> rw [h]
        · left; rfl
        · right; left; rfl
      · right; right; exact h1
    · rintro v (rfl | hv)
      · exact le_trans h2 (min_le_right a v)
      · exact h3 v hv

/-- The values of the field are the set `{zin i j}`; `minmax` gives its least and greatest elements. -/
theorem minmax_spec (s : Src) (zin : ℤ → ℤ → ℚ) (hi : 1 ≤ s.ni) (hj : s.j1 ≤ s.j2) :
    ∃ lo hi', minmax (cells s zin) = some (lo, hi') ∧
      IsLeast {v | ∃ i j, 1 ≤ i ∧ i ≤ s.ni ∧ s.j1 ≤ j ∧ j ≤ s.j2 ∧ zin i j = v} lo ∧
      IsGreatest {v | ∃ i j, 1 ≤ i ∧ i ≤ s.ni ∧ s.j1 ≤ j ∧ j ≤ s.j2 ∧ zin i j = v} hi' := by
  have hm := mem_cells s zin
  rcases hc : cells s zin with _ | ⟨a, l⟩
  · have := (hm (zin 1 s.j1)).2 ⟨1, s.j1, le_refl _, hi, le_refl _, hj, rfl⟩
    rw [hc] at this; simp at this
  · rw [hc] at hm
    obtain ⟨a1, a2, a3⟩ := foldl_min l a
    obtain ⟨b1, b2, b3⟩ := foldl_max l a
    refine ⟨_, _, rfl, ⟨?_, ?_⟩, ⟨?_, ?_⟩⟩
    · exact (hm _).1 (by rcases a1 with h | h <;> simp [h])
    · intro v hv
      rcases List.mem_cons.1 ((hm v).2 hv) with rfl | h
      · exact a2
      · exact a3 v h
    · exact (hm _).1 (by rcases b1 with h | h <;> simp [h])
    · intro v hv
      rcases List.mem_cons.1 ((hm v).2 hv) with rfl | h
      · exact b2
      · exact b3 v h

/-- **C112** (which points).  On a source grid that may be left: with the option `abort` the call fails
exactly when some point is half a cell or more outside the grid, and then changes nothing; otherwise it
answers 2 when there is such a point and 0 when there is none, and changes exactly those points: all
get the same chosen value (extrapolation options from 4 on), or the value interpolated with the
extrapolation degree. -/
theorem C112_points (s : Src) (o : Opt) (zin : ℤ → ℤ → ℚ) (n : ℕ) (x y : ℕ → ℚ) (zout : ℕ → Option ℚ)
    (hs : mayLeave s = true) (hi : 1 ≤ s.ni) (hj : 1 ≤ s.nj) :
    let out : ℕ → Prop := fun k => k < n ∧
      (x k < 1 / 2 ∨ y k < 1 / 2 ∨ (s.ni : ℚ) + 1 / 2 ≤ x k ∨ (s.nj : ℚ) + 1 / 2 ≤ y k)
    let r := corrval s o zin n x y zout
    (r.1 = -1 ↔ o.extrap = 13 ∧ ∃ k, out k) ∧ (r.1 = 0 ↔ ¬ ∃ k, out k) ∧
      (r.1 = -1 ∨ r.1 = 0 ∨ r.1 = 2) ∧
      (∀ k, ¬ out k → r.2 k = zout k) ∧ (r.1 = -1 → r.2 = zout) ∧
      (∀ k, out k → o.extrap ≠ 13 → 4 ≤ o.extrap → r.2 k = fudge s o zin) ∧
      (∀ k, out k → o.extrap < 4 → r.2 k = gdinterp s o.extrap zin (x k) (y k)) := by
  intro out r
  have ho : ∀ k, out k ↔ k < n ∧ outside s (x k) (y k) = true := fun k => by
    simp only [out, outside_iff s _ _ hi hj]
  have hz : ∀ k, k ∈ zone n (fun k => outside s (x k) (y k)) ↔ out k := fun k => by
    rw [mem_zone, ho]
  have hcp : ∀ z : ℕ → Option ℚ, ∀ d, corrpoles s o zin x y ({ dehors := d } : Zones) z = z := by
    intro z d
    simp only [corrpoles, paste, ite_self]
  have hne : zone n (fun k => outside s (x k) (y k)) ≠ [] ↔ ∃ k, out k := by
    rw [Ne, zone_nil, not_not]
    exact exists_congr fun k => (ho k).symm
  have hr : r = if ∃ k, out k then (if o.extrap = 13 then (-1, zout) else
      (2, if o.extrap ≥ 4 then paste (fun _ => fudge s o zin) (zone n fun k => outside s (x k) (y k)) zout
        else paste (fun k => gdinterp s o.extrap zin (x k) (y k))
          (zone n fun k => outside s (x k) (y k)) zout))
      else (0, zout) := by
    simp only [r, corrval, defzones, hs, if_true, hcp]
    by_cases h : ∃ k, out k
    · rw [if_pos (hne.2 h), if_pos h]
    · rw [if_neg (fun h' => h (hne.1 h')), if_neg h]
  rw [hr]
  by_cases h : ∃ k, out k
  · simp only [if_pos h]
    by_cases ha : o.extrap = 13
    · simp only [if_pos ha]
      refine ⟨by simp [ha, h], by simp [h], by simp, by simp, by simp, by simp [ha], ?_⟩
      intro k _ h'; omega
    · simp only [if_neg ha]
      refine ⟨by simp [ha], by simp [h], by simp, ?_, ?_, ?_, ?_⟩
      · intro k hk
        by_cases hb : o.extrap ≥ 4
        · rw [if_pos hb, paste_eq, if_neg (fun hm => hk ((hz k).1 hm))]
        · rw [if_neg hb, paste_eq, if_neg (fun hm => hk ((hz k).1 hm))]
      · intro h'; exact absurd h' (by decide)
      · intro k hk _ hb
        rw [if_pos hb, paste_eq, if_pos ((hz k).2 hk)]
      · intro k hk hb
        rw [if_neg (by omega), paste_eq, if_pos ((hz k).2 hk)]
  · simp only [if_neg h]
    refine ⟨by simp [h], by simp [h], by simp, by simp, by simp, ?_, ?_⟩
    · intro k hk; exact absurd ⟨k, hk⟩ h
    · intro k hk; exact absurd ⟨k, hk⟩ h

/-- **C112** (which value).  The value for points outside: 0 for winds; with `maximum` the greatest
value of the field plus a twentieth of the range, so no value of the field exceeds it; with `minimum`
the least value less a twentieth of the range; with `value` the value of the option. -/
theorem C112_value (s : Src) (o : Opt) (zin : ℤ → ℤ → ℚ) (hi : 1 ≤ s.ni) (hj : s.j1 ≤ s.j2) :
    let vals : Set ℚ := {v | ∃ i j, 1 ≤ i ∧ i ≤ s.ni ∧ s.j1 ≤ j ∧ j ≤ s.j2 ∧ zin i j = v}
    (o.vecteur = true → fudge s o zin = some 0) ∧
    (o.vecteur = false → o.extrap = 4 → ∃ lo hi' f, IsLeast vals lo ∧ IsGreatest vals hi' ∧
      fudge s o zin = some f ∧ f - hi' = (hi' - lo) / 20 ∧ ∀ v ∈ vals, v ≤ f) ∧
    (o.vecteur = false → o.extrap = 5 → ∃ lo hi' f, IsLeast vals lo ∧ IsGreatest vals hi' ∧
      fudge s o zin = some f ∧ lo - f = (hi' - lo) / 20 ∧ ∀ v ∈ vals, f ≤ v) ∧
    (o.vecteur = false → o.extrap = 6 → fudge s o zin = some o.valeur) := by
  intro vals
  obtain ⟨lo, hi', hm, hl, hg⟩ := minmax_spec s zin hi hj
  have hle : lo ≤ hi' := hl.2 hg.1
  refine ⟨fun h => ?_, fun h he => ?_, fun h he => ?_, fun h he => ?_⟩
  · simp only [fudge, hm, h, if_true, Option.bind_eq_bind, Option.bind_some]; rfl
  · refine ⟨lo, hi', hi' + 1 / 20 * (hi' - lo), hl, hg, ?_, by ring, ?_⟩
    · simp only [fudge, hm, h, he, if_true, Option.bind_eq_bind, Option.bind_some]; rfl
    · intro v hv; have := hg.2 hv; linarith
  · refine ⟨lo, hi', lo - 1 / 20 * (hi' - lo), hl, hg, ?_, by ring, ?_⟩
    · simp only [fudge, hm, h, he, Option.bind_eq_bind, Option.bind_some]; rfl
    · intro v hv; have := hl.2 hv; linarith
  · simp only [fudge, hm, h, he, Option.bind_eq_bind, Option.bind_some]; rfl

/-- A 3 by 2 polar stereographic grid and a point to its right. -/
example : mayLeave { typ := 'N', ni := 3, nj := 2, j1 := 1, j2 := 2, ext := 0, ypn := 0, yps := 0 } = true ∧
    (corrval { typ := 'N', ni := 3, nj := 2, j1 := 1, j2 := 2, ext := 0, ypn := 0, yps := 0 }
      { interp := 3, extrap := 4 } (fun i j => 10 * i + j) 2 (fun k => if k = 0 then 7 / 2 else 3)
      (fun _ => 1) (fun _ => some 5)).1 = 2 ∧
    (corrval { typ := 'N', ni := 3, nj := 2, j1 := 1, j2 := 2, ext := 0, ypn := 0, yps := 0 }
      { interp := 3, extrap := 4 } (fun i j => 10 * i + j) 2 (fun k => if k = 0 then 7 / 2 else 3)
      (fun _ => 1) (fun _ => some 5)).2 0 = some (32 + 21 / 20) ∧
    (corrval { typ := 'N', ni := 3, nj := 2, j1 := 1, j2 := 2, ext := 0, ypn := 0, yps := 0 }
      { interp := 3, extrap := 4 } (fun i j => 10 * i + j) 2 (fun k => if k = 0 then 7 / 2 else 3)
      (fun _ => 1) (fun _ => some 5)).2 1 = some 5 := by decide +kernel

end Verif.EzZones
