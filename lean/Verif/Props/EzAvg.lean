import Verif.EzAvg
import Mathlib.Tactic

namespace Verif.EzAvg

/-! # C127: averages over cells -/

/-- The length of the part between `lo` and `hi` of the tile around `k`. -/
def overlap (lo hi : ℚ) (k : Int) : ℚ := max 0 (min hi (k + 1 / 2) - max lo (k - 1 / 2))

theorem trunc_spec {q : ℚ} (h : 0 ≤ q) : (trunc q : ℚ) ≤ q ∧ q < trunc q + 1 := by
  rw [trunc, if_pos h]; exact ⟨Int.floor_le q, Int.lt_floor_add_one q⟩

theorem nint_spec {q : ℚ} (h : 0 ≤ q) : (nint q : ℚ) - 1 / 2 ≤ q ∧ q < nint q + 1 / 2 := by
  rw [nint, if_pos h]
  have h1 := Int.floor_le (q + 1 / 2)
  have h2 := Int.lt_floor_add_one (q + 1 / 2)
  constructor <;> linarith

theorem start_spec {q : ℚ} (h : 0 ≤ q) : (start q : ℚ) - 1 / 2 < q ∧ q ≤ start q + 1 / 2 := by
  obtain ⟨h1, h2⟩ := trunc_spec h
  rw [start]
  split_ifs with h3
  · push_cast; constructor <;> linarith
  · constructor <;> linarith

theorem mem_loop {a b k : Int} : k ∈ loop a b ↔ a ≤ k ∧ k ≤ b := by
  simp only [loop, List.mem_map, List.mem_range]
  constructor
  · rintro ⟨n, hn, rfl⟩; omega
  · rintro ⟨h1, h2⟩; exact ⟨(k - a).toNat, by omega, by omega⟩

theorem loop_nodup (a b : Int) : (loop a b).Nodup := by
  unfold loop
  refine List.Nodup.map ?_ List.nodup_range
  intro m n h
  simpa using h

theorem loop_sum (a b : Int) (f : Int → ℚ) : ((loop a b).map f).sum = ∑ k ∈ Finset.Icc a b, f k := by
  rw [← List.sum_toFinset f (loop_nodup a b)]
  congr 1
  ext k
  simp [mem_loop]

theorem row_fold {zt : Int → Int → Option ℚ} {f : Int → Int → ℚ} (xf yf : Int → ℚ) (jj : Int) :
    ∀ (l : List Int) (z t : ℚ), (∀ ii ∈ l, zt ii jj = some (f ii jj)) →
      l.foldl (tile zt xf yf jj) (some (z, t)) =
        some (z + (l.map fun ii => f ii jj * (xf ii * yf jj)).sum, t + (l.map fun ii => xf ii * yf jj).sum)
  | [], z, t, _ => by simp
  | ii :: l, z, t, h => by
    have h1 : tile zt xf yf jj (some (z, t)) ii = some (z + f ii jj * (xf ii * yf jj), t + xf ii * yf jj) := by
      simp [tile, h ii (by simp)]
    rw [List.foldl_cons, h1, row_fold xf yf jj l _ _ fun k hk => h k (by simp [hk])]
    simp only [List.map_cons, List.sum_cons, add_assoc]

theorem rows_fold {zt : Int → Int → Option ℚ} {f : Int → Int → ℚ} (xf yf : Int → ℚ) (li : List Int) :
    ∀ (l : List Int) (z t : ℚ), (∀ jj ∈ l, ∀ ii ∈ li, zt ii jj = some (f ii jj)) →
      l.foldl (fun s jj => li.foldl (tile zt xf yf jj) s) (some (z, t)) =
        some (z + (l.map fun jj => (li.map fun ii => f ii jj * (xf ii * yf jj)).sum).sum,
          t + (l.map fun jj => (li.map fun ii => xf ii * yf jj).sum).sum)
  | [], z, t, _ => by simp
  | jj :: l, z, t, h => by
    rw [List.foldl_cons, row_fold xf yf jj li z t (h jj (by simp)),
      rows_fold xf yf li l _ _ fun k hk => h k (by simp [hk])]
    simp only [List.map_cons, List.sum_cons, add_assoc]

theorem cell_eq {zt : Int → Int → Option ℚ} {f : Int → Int → ℚ} {is ie js je : Int} (xf yf : Int → ℚ)
    (h : ∀ jj, js ≤ jj → jj ≤ je → ∀ ii, is ≤ ii → ii ≤ ie → zt ii jj = some (f ii jj)) :
    ∃ v, cell zt is ie js je xf yf = some v ∧
      v * ((∑ ii ∈ Finset.Icc is ie, xf ii) * ∑ jj ∈ Finset.Icc js je, yf jj) =
        (if (∑ ii ∈ Finset.Icc is ie, xf ii) * (∑ jj ∈ Finset.Icc js je, yf jj) = 0 then 0 else
        ∑ jj ∈ Finset.Icc js je, ∑ ii ∈ Finset.Icc is ie, f ii jj * (xf ii * yf jj)) := by
  have hf := rows_fold (zt := zt) (f := f) xf yf (loop is ie) (loop js je) 0 0
    (fun jj hj ii hi => h jj (mem_loop.1 hj).1 (mem_loop.1 hj).2 ii (mem_loop.1 hi).1 (mem_loop.1 hi).2)
  have ht : ((loop js je).map fun jj => ((loop is ie).map fun ii => xf ii * yf jj).sum).sum =
      (∑ ii ∈ Finset.Icc is ie, xf ii) * ∑ jj ∈ Finset.Icc js je, yf jj := by
    rw [loop_sum, Finset.mul_sum]
    refine Finset.sum_congr rfl fun jj _ => ?_
    rw [loop_sum, Finset.sum_mul]
  have hz : ((loop js je).map fun jj => ((loop is ie).map fun ii => f ii jj * (xf ii * yf jj)).sum).sum =
      ∑ jj ∈ Finset.Icc js je, ∑ ii ∈ Finset.Icc is ie, f ii jj * (xf ii * yf jj) := by
    rw [loop_sum]
    exact Finset.sum_congr rfl fun jj _ => loop_sum _ _ _
  rw [ht, hz, zero_add, zero_add] at hf
  refine ⟨_, by rw [cell, hf]; rfl, ?_⟩
  split_ifs with h0
  · rw [h0, mul_zero]
  · exact div_mul_cancel₀ _ h0

/-- The parts of the tiles add up. -/
theorem overlap_sum {lo hi : ℚ} (h : lo ≤ hi) (A : Int) (n : Nat) (hA : (A : ℚ) - 1 / 2 ≤ lo)
    (hB : hi ≤ (A + n : ℚ) + 1 / 2) : ∑ k ∈ Finset.Icc A (A + n), overlap lo hi k = hi - lo := by
  have key : ∀ m : Nat, ∑ k ∈ Finset.Icc A (A + m), overlap lo hi k =
      max lo (min hi ((A + m : ℚ) + 1 / 2)) - lo := by
    intro m
    induction m with
    | zero =>
      simp only [Nat.cast_zero, add_zero, Finset.Icc_self, Finset.sum_singleton, overlap]
      rcases le_total lo ((A : ℚ) + 1 / 2) with h1 | h1 <;> rcases le_total hi ((A : ℚ) + 1 / 2) with h2 | h2 <;>
        simp only [max_eq_left hA, min_eq_left h2, min_eq_right h2, max_eq_right h1, max_eq_left h1, max_eq_right h] <;>
        first
          | exact max_eq_right (by linarith)
          | (rw [max_eq_left (by linarith)]; linarith)
    | succ m ih =>
      have hI : Finset.Icc A (A + (m + 1 : Nat)) = insert (A + (m + 1 : Nat)) (Finset.Icc A (A + m)) := by
        ext k; simp only [Finset.mem_insert, Finset.mem_Icc]; omega
      rw [hI, Finset.sum_insert (by simp), ih, overlap]
      push_cast
      have e : (A + (m + 1) : ℚ) - 1 / 2 = A + m + 1 / 2 := by ring
      rw [e]
      have e2 : (A + (m + 1) : ℚ) + 1 / 2 = A + m + 1 / 2 + 1 := by ring
      rw [e2]
      generalize (A + m + 1 / 2 : ℚ) = t
      rcases le_total lo t with h1 | h1 <;> rcases le_total hi t with h2 | h2 <;>
        rcases le_total lo (t + 1) with h3 | h3 <;> rcases le_total hi (t + 1) with h4 | h4 <;>
        simp only [min_eq_left h2, min_eq_right h2, max_eq_right h1, max_eq_left h1, max_eq_right h,
          min_eq_left h4, min_eq_right h4, max_eq_right h3, max_eq_left h3] <;>
        first
          | (rw [max_eq_left (by linarith)]; linarith)
          | (rw [max_eq_right (by linarith)]; linarith)
  rw [key, min_eq_left hB, max_eq_right h]

/-- The weights of one dimension are the parts of the tiles, up to a factor. -/
theorem frac_overlap {lo hi : ℚ} (h0 : 0 ≤ lo) (h : lo < hi) :
    ∃ c : ℚ, ∀ k : Int, overlap lo hi k = if start lo ≤ k ∧ k ≤ nint hi then c * frac lo hi k else 0 := by
  obtain ⟨s1, s2⟩ := start_spec h0
  obtain ⟨e1, e2⟩ := nint_spec (le_trans h0 h.le)
  have hlt : ∀ k : Int, k < start lo → overlap lo hi k = 0 := by
    intro k hk
    have hk' : (k : ℚ) + 1 ≤ start lo := by exact_mod_cast hk
    rw [overlap]
    refine max_eq_left ?_
    have := min_le_right hi ((k : ℚ) + 1 / 2)
    have := le_max_left lo ((k : ℚ) - 1 / 2)
    linarith
  have hgt : ∀ k : Int, nint hi < k → overlap lo hi k = 0 := by
    intro k hk
    have hk' : (nint hi : ℚ) + 1 ≤ k := by exact_mod_cast hk
    rw [overlap]
    refine max_eq_left ?_
    have := min_le_left hi ((k : ℚ) + 1 / 2)
    have := le_max_right lo ((k : ℚ) - 1 / 2)
    linarith
  by_cases hB : ∃ k : Int, (k : ℚ) - 1 / 2 < lo ∧ hi < k + 1 / 2
  · obtain ⟨k, b1, b2⟩ := hB
    have hs : start lo = k := by
      have h1 : start lo < k + 1 := by
        have : (start lo : ℚ) < k + 1 := by linarith
        exact_mod_cast this
      have h2 : k - 1 < start lo := by
        have : (k : ℚ) - 1 < start lo := by linarith
        exact_mod_cast this
      omega
    have he : nint hi = k := by
      have h1 : nint hi < k + 1 := by
        have : (nint hi : ℚ) < k + 1 := by linarith
        exact_mod_cast this
      have h2 : k - 1 < nint hi := by
        have : (k : ℚ) - 1 < nint hi := by linarith
        exact_mod_cast this
      omega
    have hp : 0 < hi - ((k : ℚ) - 1 / 2) := by linarith
    refine ⟨(hi - lo) / (hi - ((k : ℚ) - 1 / 2)), fun k' => ?_⟩
    by_cases hk : start lo ≤ k' ∧ k' ≤ nint hi
    · have : k' = k := by omega
      subst this
      rw [if_pos hk, frac, cut, if_pos b2, overlap, min_eq_left b2.le, max_eq_left b1.le,
        max_eq_right (by linarith)]
      rw [div_mul_cancel₀ _ hp.ne']
    · rw [if_neg hk]
      rcases not_and_or.1 hk with h1 | h1
      · exact hlt _ (by omega)
      · exact hgt _ (by omega)
  · refine ⟨1, fun k => ?_⟩
    by_cases hk : start lo ≤ k ∧ k ≤ nint hi
    · have k1 : (start lo : ℚ) ≤ k := by exact_mod_cast hk.1
      have k2 : (k : ℚ) ≤ nint hi := by exact_mod_cast hk.2
      have l1 : lo ≤ (k : ℚ) + 1 / 2 := by linarith
      have l2 : (k : ℚ) - 1 / 2 ≤ hi := by linarith
      rw [if_pos hk, one_mul, frac, cut, overlap]
      by_cases a1 : (k : ℚ) - 1 / 2 < lo
      · have a2 : ¬ hi < (k : ℚ) + 1 / 2 := fun a2 => hB ⟨k, a1, a2⟩
        rw [if_neg a2, if_pos a1, min_eq_right (not_lt.1 a2), max_eq_left a1.le, max_eq_right (by linarith)]
      · rw [if_neg a1, max_eq_right (not_lt.1 a1)]
        by_cases a2 : hi < (k : ℚ) + 1 / 2
        · rw [if_pos a2, min_eq_left a2.le, max_eq_right (by linarith)]
        · rw [if_neg a2, min_eq_right (not_lt.1 a2), max_eq_right (by linarith)]
    · rw [if_neg hk]
      rcases not_and_or.1 hk with h1 | h1
      · exact hlt _ (by omega)
      · exact hgt _ (by omega)

/-- Restriction of a sum of parts to the tiles of the loop. -/
theorem restrict {lo hi : ℚ} (h0 : 0 ≤ lo) (h : lo < hi) {A B : Int} (hA : (A : ℚ) - 1 / 2 < lo)
    (hB : hi < (B : ℚ) + 1 / 2) {c : ℚ}
    (hc : ∀ k : Int, overlap lo hi k = if start lo ≤ k ∧ k ≤ nint hi then c * frac lo hi k else 0)
    (g : Int → ℚ) : A ≤ start lo ∧ nint hi ≤ B ∧
    ∑ k ∈ Finset.Icc A B, g k * overlap lo hi k = c * ∑ k ∈ Finset.Icc (start lo) (nint hi), g k * frac lo hi k := by
  obtain ⟨s1, s2⟩ := start_spec h0
  obtain ⟨e1, e2⟩ := nint_spec (le_trans h0 h.le)
  have h1 : A - 1 < start lo := by
    have : (A : ℚ) - 1 < start lo := by linarith
    exact_mod_cast this
  have h2 : nint hi < B + 1 := by
    have : (nint hi : ℚ) < B + 1 := by linarith
    exact_mod_cast this
  refine ⟨by omega, by omega, ?_⟩
  rw [Finset.mul_sum]
  have hsub : Finset.Icc (start lo) (nint hi) ⊆ Finset.Icc A B := by
    intro k; simp only [Finset.mem_Icc]; omega
  rw [← Finset.sum_subset hsub]
  · refine Finset.sum_congr rfl fun k hk => ?_
    rw [hc, if_pos (Finset.mem_Icc.1 hk)]; ring
  · intro k _ hk
    rw [hc, if_neg (fun hh => hk (Finset.mem_Icc.2 hh)), mul_zero]

theorem overlap_sum' {lo hi : ℚ} (h : lo ≤ hi) {A B : Int} (hA : (A : ℚ) - 1 / 2 < lo) (hB : hi < (B : ℚ) + 1 / 2) :
    ∑ k ∈ Finset.Icc A B, overlap lo hi k = hi - lo := by
  have hAB : A - 1 < B := by
    have : (A : ℚ) - 1 < B := by linarith
    exact_mod_cast this
  have e : B = A + ((B - A).toNat : Nat) := by omega
  have := overlap_sum h A (B - A).toNat hA.le (by
    have e' : (B : ℚ) = A + ((B - A).toNat : Nat) := by exact_mod_cast e
    rw [← e']; exact hB.le)
  rwa [← e] at this

/-- Columns of the extended field: the field itself, or the field repeated with a period of `ni - 1` or `ni`
columns. -/
def column (ext : Nat) (ni i : Int) : Int :=
  if ext = 0 then i else if ext = 1 then (i - 1) % (ni - 1) + 1 else (i - 1) % ni + 1

/-- The columns that the extended field has. -/
def Columns (ext : Nat) (ni A B : Int) : Prop :=
  (ext = 0 ∧ A = 1 ∧ B = ni) ∨ (ext = 1 ∧ A = 2 - ni ∧ B = 2 * ni - 2) ∨ (ext = 2 ∧ A = 1 - ni ∧ B = 2 * ni)

theorem ztmp_eq {ext : Nat} {ni nj A B i j : Int} (z junk : Int → Int → ℚ) (h : Columns ext ni A B)
    (h1 : A ≤ i) (h2 : i ≤ B) (h3 : 1 ≤ j) (h4 : j ≤ nj) :
    ztmp ext ni nj z junk i j = some (z (column ext ni i) j) ∧
      1 ≤ column ext ni i ∧ column ext ni i ≤ ni := by
  rw [ztmp, if_neg (not_not.2 ⟨h3, h4⟩)]
  rcases h with ⟨rfl, rfl, rfl⟩ | ⟨rfl, rfl, rfl⟩ | ⟨rfl, rfl, rfl⟩
  · rw [if_pos rfl, if_pos ⟨h1, h2⟩]; exact ⟨rfl, h1, h2⟩
  · simp only [column, if_neg (show ¬ (1 = 0) by decide), if_true]
    split_ifs with a b c
    · have : (i - 1) % (ni - 1) = i - 1 := Int.emod_eq_of_lt (by omega) (by omega)
      rw [this, sub_add_cancel]; exact ⟨rfl, by omega, by omega⟩
    · have : (i - 1) % (ni - 1) = i - 1 + (ni - 1) := by
        rw [← Int.add_emod_right]; exact Int.emod_eq_of_lt (by omega) (by omega)
      rw [this]; refine ⟨?_, by omega, by omega⟩; congr 2; omega
    · have : (i - 1) % (ni - 1) = i - 1 - (ni - 1) := by
        rw [← Int.sub_emod_right]; exact Int.emod_eq_of_lt (by omega) (by omega)
      rw [this]; refine ⟨?_, by omega, by omega⟩; congr 2; omega
    · omega
    · omega
  · simp only [column, if_neg (show ¬ (2 = 0) by decide), if_neg (show ¬ (2 = 1) by decide), if_true]
    split_ifs with a b c
    · have : (i - 1) % ni = i - 1 := Int.emod_eq_of_lt (by omega) (by omega)
      rw [this, sub_add_cancel]; exact ⟨rfl, by omega, by omega⟩
    · have : (i - 1) % ni = i - 1 + ni := by
        rw [← Int.add_emod_right]; exact Int.emod_eq_of_lt (by omega) (by omega)
      rw [this]; refine ⟨?_, by omega, by omega⟩; congr 2; omega
    · have : (i - 1) % ni = i - 1 - ni := by
        rw [← Int.sub_emod_right]; exact Int.emod_eq_of_lt (by omega) (by omega)
      rw [this]; refine ⟨?_, by omega, by omega⟩; congr 2; omega
    · omega

/-- The cell of the point `i`, `j` of the output, between the middles of neighbouring points (times the factor
of the row in x); before the first and after the last column the coordinates go on with the same step. -/
structure Cell (ni : Int) (nid njd : Nat) (x y amp : Nat → ℚ) (i j : Nat) (lo hi yl yh : ℚ) : Prop where
  two : 2 ≤ nid
  x1 : x 1 ≤ ((ni - 1 : Int) : ℚ)
  hi1 : 1 ≤ i
  hi2 : i ≤ nid
  hj1 : 2 ≤ j
  hj2 : j < njd
  lo_eq : lo = x i - (if i = 1 then x 2 - x 1 else x i - x (i - 1)) / 2 * amp j
  hi_eq : hi = x i + (if i = nid then x i - x (i - 1) else x (i + 1) - x i) / 2 * amp j
  yl_eq : yl = (y (j - 1) + y j) / 2
  yh_eq : yh = (y j + y (j + 1)) / 2

theorem avg_cell {ext : Nat} {ni nj : Int} {z junk : Int → Int → ℚ} {nid njd : Nat} {x y amp : Nat → ℚ} {i j : Nat}
    {lo hi yl yh : ℚ} (h : Cell ni nid njd x y amp i j lo hi yl yh) :
    avg ext ni nj z junk nid njd x y amp i j =
      cell (ztmp ext ni nj z junk) (start lo) (nint hi) (start yl) (nint yh) (frac lo hi) (frac yl yh) := by
  have hx : ∀ k, xs ni x k = x k := by
    intro k
    rw [xs, if_neg]
    rintro ⟨rfl, h1⟩
    exact absurd h1 (not_lt.2 h.x1)
  have hxs : xs ni x = x := funext hx
  have two := h.two
  have hj1 := h.hj1
  have hj2 := h.hj2
  have e1 : xLow x (amp j) i = lo := by
    rw [h.lo_eq, xLow]
    split_ifs with h1
    · subst h1; ring
    · ring
  have e2 : xHigh nid x (amp j) i = hi := by
    rw [h.hi_eq, xHigh]
    split_ifs with h1
    · subst h1; ring
    · ring
  have e3 : yLow y j = yl := by
    rw [h.yl_eq, yLow, if_neg (by omega)]; ring
  have e4 : yHigh njd nj y j = yh := by
    rw [h.yh_eq, yHigh, if_neg (by omega)]; ring
  rw [avg, if_neg (by omega)]
  simp only [hxs, e1, e2, e3, e4, if_neg (show ¬ j = njd by omega), if_neg (show ¬ j = 1 by omega)]
  rw [stop, if_neg (by simp)]

/-- C127: inside, the value is the average of the field over the cell: times the area of the cell it is the sum of
the values of the tiles times the areas of their parts in the cell. -/
theorem C127_partial {ext : Nat} {ni nj A B : Int} {nid njd : Nat} {x y amp : Nat → ℚ} {i j : Nat}
    {lo hi yl yh : ℚ} (z junk : Int → Int → ℚ) (hc : Cell ni nid njd x y amp i j lo hi yl yh)
    (hcol : Columns ext ni A B) (h0 : 0 ≤ lo) (h1 : lo < hi) (hA : (A : ℚ) - 1 / 2 < lo) (hB : hi < (B : ℚ) + 1 / 2)
    (g1 : 1 / 2 < yl) (g2 : yl < yh) (g3 : yh < (nj : ℚ) + 1 / 2) :
    ∃ v, avg ext ni nj z junk nid njd x y amp i j = some v ∧
      v * ((hi - lo) * (yh - yl)) = ∑ jj ∈ Finset.Icc 1 nj, ∑ ii ∈ Finset.Icc A B,
        z (column ext ni ii) jj * (overlap lo hi ii * overlap yl yh jj) := by
  have g0 : 0 ≤ yl := by linarith
  have g1' : ((1 : Int) : ℚ) - 1 / 2 < yl := by push_cast; linarith
  obtain ⟨cx, hx⟩ := frac_overlap h0 h1
  obtain ⟨cy, hy⟩ := frac_overlap g0 g2
  obtain ⟨a1, a2, -⟩ := restrict h0 h1 hA hB hx fun _ => 1
  obtain ⟨b1, b2, -⟩ := restrict g0 g2 g1' g3 hy fun _ => 1
  have hz : ∀ jj, start yl ≤ jj → jj ≤ nint yh → ∀ ii, start lo ≤ ii → ii ≤ nint hi →
      ztmp ext ni nj z junk ii jj = some ((fun ii jj => z (column ext ni ii) jj) ii jj) := fun jj p1 p2 ii p3 p4 =>
    (ztmp_eq z junk hcol (by omega) (by omega) (by omega) (by omega)).1
  obtain ⟨v, hv, hs⟩ := cell_eq (frac lo hi) (frac yl yh) hz
  refine ⟨v, by rw [avg_cell hc]; exact hv, ?_⟩
  have sx : hi - lo = cx * ∑ k ∈ Finset.Icc (start lo) (nint hi), frac lo hi k := by
    have := (restrict h0 h1 hA hB hx fun _ => 1).2.2
    simp only [one_mul] at this
    rw [← this, overlap_sum' h1.le hA hB]
  have sy : yh - yl = cy * ∑ k ∈ Finset.Icc (start yl) (nint yh), frac yl yh k := by
    have := (restrict g0 g2 g1' g3 hy fun _ => 1).2.2
    simp only [one_mul] at this
    rw [← this, overlap_sum' g2.le g1' g3]
  have hne : (∑ k ∈ Finset.Icc (start lo) (nint hi), frac lo hi k) *
      (∑ k ∈ Finset.Icc (start yl) (nint yh), frac yl yh k) ≠ 0 := by
    refine mul_ne_zero ?_ ?_
    · intro e; rw [e, mul_zero] at sx; linarith
    · intro e; rw [e, mul_zero] at sy; linarith
  rw [if_neg hne] at hs
  have hr : ∑ jj ∈ Finset.Icc 1 nj, ∑ ii ∈ Finset.Icc A B,
        z (column ext ni ii) jj * (overlap lo hi ii * overlap yl yh jj) =
      cx * cy * ∑ jj ∈ Finset.Icc (start yl) (nint yh), ∑ ii ∈ Finset.Icc (start lo) (nint hi),
        z (column ext ni ii) jj * (frac lo hi ii * frac yl yh jj) := by
    have e1 : ∀ jj, ∑ ii ∈ Finset.Icc A B, z (column ext ni ii) jj * (overlap lo hi ii * overlap yl yh jj) =
        (cx * ∑ ii ∈ Finset.Icc (start lo) (nint hi), z (column ext ni ii) jj * frac lo hi ii) * overlap yl yh jj := by
      intro jj
      rw [← (restrict h0 h1 hA hB hx fun ii => z (column ext ni ii) jj).2.2, Finset.sum_mul]
      exact Finset.sum_congr rfl fun ii _ => by ring
    simp only [e1]
    rw [(restrict g0 g2 g1' g3 hy _).2.2, Finset.mul_sum, Finset.mul_sum]
    refine Finset.sum_congr rfl fun jj _ => ?_
    rw [Finset.mul_sum, Finset.mul_sum, Finset.sum_mul, Finset.mul_sum]
    exact Finset.sum_congr rfl fun ii _ => by ring
  rw [hr, ← hs, sx, sy]
  ring

/-- C127: the average is within the range of the field. -/
theorem C127_range_partial {ext : Nat} {ni nj A B : Int} {nid njd : Nat} {x y amp : Nat → ℚ} {i j : Nat}
    {lo hi yl yh : ℚ} (z junk : Int → Int → ℚ) (hc : Cell ni nid njd x y amp i j lo hi yl yh)
    (hcol : Columns ext ni A B) (h0 : 0 ≤ lo) (h1 : lo < hi) (hA : (A : ℚ) - 1 / 2 < lo) (hB : hi < (B : ℚ) + 1 / 2)
    (g1 : 1 / 2 < yl) (g2 : yl < yh) (g3 : yh < (nj : ℚ) + 1 / 2) {m M : ℚ}
    (hz : ∀ ii jj, 1 ≤ ii → ii ≤ ni → 1 ≤ jj → jj ≤ nj → m ≤ z ii jj ∧ z ii jj ≤ M) :
    ∃ v, avg ext ni nj z junk nid njd x y amp i j = some v ∧ m ≤ v ∧ v ≤ M := by
  obtain ⟨v, hv, hs⟩ := C127_partial z junk hc hcol h0 h1 hA hB g1 g2 g3
  refine ⟨v, hv, ?_⟩
  have g1' : ((1 : Int) : ℚ) - 1 / 2 < yl := by push_cast; linarith
  have hp : 0 < (hi - lo) * (yh - yl) := mul_pos (by linarith) (by linarith)
  have htot : ∀ c : ℚ, ∑ jj ∈ Finset.Icc 1 nj, ∑ ii ∈ Finset.Icc A B, c * (overlap lo hi ii * overlap yl yh jj) =
      c * ((hi - lo) * (yh - yl)) := by
    intro c
    rw [← overlap_sum' h1.le hA hB, ← overlap_sum' g2.le g1' g3, Finset.mul_sum, Finset.mul_sum]
    refine Finset.sum_congr rfl fun jj _ => ?_
    rw [Finset.sum_mul, Finset.mul_sum]
  have hpos : ∀ ii jj, 0 ≤ overlap lo hi ii * overlap yl yh jj := fun ii jj =>
    mul_nonneg (le_max_left _ _) (le_max_left _ _)
  have hb : ∀ ii ∈ Finset.Icc A B, ∀ jj ∈ Finset.Icc 1 nj,
      m ≤ z (column ext ni ii) jj ∧ z (column ext ni ii) jj ≤ M := by
    intro ii hi jj hj
    rw [Finset.mem_Icc] at hi hj
    obtain ⟨-, c1, c2⟩ := ztmp_eq z junk hcol hi.1 hi.2 hj.1 hj.2
    exact hz _ _ c1 c2 hj.1 hj.2
  constructor
  · refine le_of_mul_le_mul_right ?_ hp
    rw [hs, ← htot]
    exact Finset.sum_le_sum fun jj hj => Finset.sum_le_sum fun ii hi =>
      mul_le_mul_of_nonneg_right (hb ii hi jj hj).1 (hpos _ _)
  · refine le_of_mul_le_mul_right ?_ hp
    rw [hs, ← htot]
    exact Finset.sum_le_sum fun jj hj => Finset.sum_le_sum fun ii hi =>
      mul_le_mul_of_nonneg_right (hb ii hi jj hj).2 (hpos _ _)

/-- A field whose column 3 and row 4 and column 5 can be marked. -/
def mark (c r : Int) (i j : Int) : ℚ := if i = c ∨ j = r then 1 else 0

/-- The hypotheses of C127 are met: points 1, 3, 5 of a field of six columns, repeated. -/
example : ∃ v, avg 2 6 6 (mark 3 0) (fun _ _ => 0) 3 3 (fun n => 2 * n - 1) (fun n => 2 * n - 1) (fun _ => 1) 2 2 = some v ∧
    v * ((4 - 2) * (4 - 2)) = ∑ jj ∈ Finset.Icc (1 : Int) 6, ∑ ii ∈ Finset.Icc (-5 : Int) 12,
        mark 3 0 (column 2 6 ii) jj * (overlap 2 4 ii * overlap 2 4 jj) :=
  C127_partial (A := -5) (B := 12) (mark 3 0) (fun _ _ => 0)
    (hc := ⟨by norm_num, by norm_num, by norm_num, by norm_num, by norm_num, by norm_num, by norm_num, by norm_num,
      by norm_num, by norm_num⟩)
    (hcol := Or.inr (Or.inr ⟨rfl, rfl, rfl⟩)) (by norm_num) (by norm_num) (by norm_num) (by norm_num) (by norm_num)
    (by norm_num) (by norm_num)

example : avg 2 6 6 (mark 3 0) (fun _ _ => 0) 3 3 (fun n => 2 * n - 1) (fun n => 2 * n - 1) (fun _ => 1) 2 2 =
    some (1 / 2) := by decide +kernel

/-- In the first row the tile after the cell has a negative weight: the value is outside the range of the field,
0 and 1. -/
theorem C127_first_witness :
    avg 0 6 6 (mark 3 0) (fun _ _ => 0) 3 3 (fun n => 8 / 5 * n - 1 / 10) (fun n => 2 * n - 1) (fun _ => 1) 1 1 =
      some (-1 / 7) := by decide +kernel

/-- In the last row the part of the cell below the point is left out: the cell goes from 4 to 6, but a field that is
1 in row 4 and 0 elsewhere gives 0. -/
theorem C127_last_witness :
    avg 0 6 6 (mark 0 4) (fun _ _ => 0) 3 3 (fun n => 2 * n - 1 / 2) (fun n => 2 * n - 1) (fun _ => 1) 2 3 = some 0 ∧
      overlap 4 6 4 = 1 / 2 := by constructor <;> decide +kernel

/-- When the cell begins below zero its first tile is left out: the cell goes from -0.7 to 1.3, but a field that is
1 in column 5, the column -1 of the extended field, gives 0. -/
theorem C127_negative_witness :
    avg 2 6 6 (mark 5 0) (fun _ _ => 0) 3 3 (fun n => 2 * n - 17 / 10) (fun n => 2 * n - 1) (fun _ => 1) 1 2 = some 0 ∧
      column 2 6 (-1) = 5 ∧ overlap (-7 / 10) (13 / 10) (-1) = 1 / 5 := by
  refine ⟨?_, ?_, ?_⟩ <;> decide +kernel

/-- Without extension the cell of a point in the first column is read outside the field. -/
theorem C127_outside_witness :
    avg 0 6 6 (mark 3 0) (fun _ _ => 0) 3 3 (fun n => 2 * n - 1) (fun n => 2 * n - 1) (fun _ => 1) 1 2 = none := by
  decide +kernel

theorem tile_const {zt : Int → Int → Option ℚ} {c : ℚ} (hz : ∀ i j v, zt i j = some v → v = c) (xf yf : Int → ℚ)
    (jj ii : Int) (s : Option (ℚ × ℚ)) (hs : ∀ p, s = some p → p.1 = c * p.2) :
    ∀ p, tile zt xf yf jj s ii = some p → p.1 = c * p.2 := by
  intro p hp
  simp only [tile, Option.bind_eq_bind, Option.bind_eq_some_iff, Option.some.injEq] at hp
  obtain ⟨q, hq, v, hv, rfl⟩ := hp
  have := hs q hq
  rw [hz _ _ _ hv]
  dsimp only
  rw [this]; ring

theorem cell_const {zt : Int → Int → Option ℚ} {c : ℚ} (hz : ∀ i j v, zt i j = some v → v = c) (xf yf : Int → ℚ)
    (is ie js je : Int) (v : ℚ) (h : cell zt is ie js je xf yf = some v) : v = c ∨ v = 0 := by
  have hrow : ∀ jj (l : List Int) (s : Option (ℚ × ℚ)), (∀ p, s = some p → p.1 = c * p.2) →
      ∀ p, l.foldl (tile zt xf yf jj) s = some p → p.1 = c * p.2 := by
    intro jj l
    induction l with
    | nil => intro s hs; exact hs
    | cons ii l ih => intro s hs; exact ih _ (tile_const hz xf yf jj ii s hs)
  have hrows : ∀ (l : List Int) (s : Option (ℚ × ℚ)), (∀ p, s = some p → p.1 = c * p.2) →
      ∀ p, l.foldl (fun s jj => (loop is ie).foldl (tile zt xf yf jj) s) s = some p → p.1 = c * p.2 := by
    intro l
    induction l with
    | nil => intro s hs; exact hs
    | cons jj l ih => intro s hs; exact ih _ (hrow jj _ s hs)
  simp only [cell, Option.bind_eq_bind, Option.bind_eq_some_iff, Option.some.injEq] at h
  obtain ⟨p, hp, hv⟩ := h
  have := hrows _ _ (by rintro p ⟨⟩; simp) p hp
  rw [← hv]
  split_ifs with h0
  · right; rw [this, h0, mul_zero]
  · left; rw [this]; exact mul_div_cancel_right₀ c h0

/-- C127: in every row and column, without extension or with the field repeated as it is, a constant field gives the
constant, unless the weights add up to zero. -/
theorem C127_constant {ext : Nat} (hext : ext ≠ 1) (ni nj : Int) (c : ℚ) (junk : Int → Int → ℚ) (nid njd : Nat)
    (x y amp : Nat → ℚ) (i j : Nat) (v : ℚ)
    (h : avg ext ni nj (fun _ _ => c) junk nid njd x y amp i j = some v) : v = c ∨ v = 0 := by
  have hz : ∀ i j v, ztmp ext ni nj (fun _ _ => c) junk i j = some v → v = c := by
    intro i j v hv
    rw [ztmp, if_neg hext] at hv
    split_ifs at hv <;> simp_all
  unfold avg at h
  split_ifs at h with h1
  all_goals exact cell_const hz _ _ _ _ _ _ _ h

example : avg 0 6 6 (fun _ _ => 4) (fun _ _ => 0) 3 3 (fun n => 8 / 5 * n - 1 / 10) (fun n => 2 * n - 1) (fun _ => 1) 1 1 =
    some 4 := by decide +kernel

/-- The tiles at the edge of the field are cut there: in the first row of the output, whose cell begins at row 1, and
in the last, whose cell ends at row `nj`, the weight of a tile that the cell meets is the length of the part of it in
the cell. -/
theorem C127_edges (nj : Int) (lo hi : ℚ) (k : Int) :
    (1 ≤ k → 1 ≤ hi → (k : ℚ) - 1 / 2 ≤ hi → fracFirst 1 hi k = overlap 1 hi k) ∧
      (k ≤ nj → lo ≤ nj → lo ≤ (k : ℚ) + 1 / 2 → fracLast nj lo nj k = overlap lo nj k) := by
  constructor
  · intro h1 h2 h3
    rcases h1.eq_or_lt with rfl | h1
    · simp only [fracFirst, cut, overlap, if_true]
      rw [max_eq_left (show ((1 : Int) : ℚ) - 1 / 2 ≤ 1 by norm_num)]
      rw [if_neg (lt_irrefl _)]
      split_ifs with h
      · rw [min_eq_left h.le, max_eq_right (by linarith)]
      · rw [min_eq_right (not_lt.1 h), max_eq_right (by norm_num)]
    · have h4 : (2 : ℚ) ≤ k := by exact_mod_cast h1
      simp only [fracFirst, cut, overlap]
      rw [if_neg (show ¬ k = 1 by omega), max_eq_right (show (1 : ℚ) ≤ (k : ℚ) - 1 / 2 by linarith),
        if_neg (not_lt.2 (show (1 : ℚ) ≤ (k : ℚ) - 1 / 2 by linarith))]
      split_ifs with h
      · rw [min_eq_left h.le, max_eq_right (by linarith)]
      · rw [min_eq_right (not_lt.1 h), max_eq_right (by linarith)]
  · intro h1 h2 h3
    rcases h1.eq_or_lt with rfl | h1
    · simp only [fracLast, cut, overlap, if_true]
      rw [min_eq_left (show (k : ℚ) ≤ (k : ℚ) + 1 / 2 by linarith), if_neg (lt_irrefl _)]
      split_ifs with h
      · rw [max_eq_left h.le, max_eq_right (by linarith)]
      · rw [max_eq_right (not_lt.1 h), max_eq_right (by linarith)]
    · have h4 : (k : ℚ) + 1 ≤ nj := by exact_mod_cast h1
      simp only [fracLast, cut, overlap]
      rw [if_neg (show ¬ k = nj by omega), min_eq_right (show (k : ℚ) + 1 / 2 ≤ nj by linarith),
        if_neg (not_lt.2 (show (k : ℚ) + 1 / 2 ≤ nj by linarith))]
      split_ifs with h
      · rw [max_eq_left h.le, max_eq_right (by linarith)]
      · rw [max_eq_right (not_lt.1 h), max_eq_right (by linarith)]

example : fracFirst 1 (6 / 5) 1 = 1 / 5 ∧ fracLast 6 (28 / 5) 6 6 = 2 / 5 := by decide +kernel

end Verif.EzAvg
