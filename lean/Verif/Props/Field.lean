import Verif.Field
import Mathlib.Tactic
import Mathlib.LinearAlgebra.Lagrange

namespace Verif.Field

/-! # C140: bilinear interpolation and sections -/

/-- `v` is the bilinear interpolation of the field at `(x, y)`: the mean of the corners of a cell that
holds the point, weighted by the opposite areas. -/
def Bilinear (z : Nat → Nat → ℚ) (ni nj : Nat) (x y v : ℚ) : Prop :=
  ∃ i j : Nat, 1 ≤ i ∧ i + 1 ≤ ni ∧ 1 ≤ j ∧ j + 1 ≤ nj ∧
    (i : ℚ) ≤ x ∧ x ≤ i + 1 ∧ (j : ℚ) ≤ y ∧ y ≤ j + 1 ∧
    v = (i + 1 - x) * (j + 1 - y) * z i j + (x - i) * (j + 1 - y) * z (i + 1) j +
      (i + 1 - x) * (y - j) * z i (j + 1) + (x - i) * (y - j) * z (i + 1) (j + 1)

def Inside (ni nj : Nat) (x y : ℚ) : Prop := 1 ≤ x ∧ x ≤ ni ∧ 1 ≤ y ∧ y ≤ nj

theorem cell_of {n : Nat} {x : ℚ} (hn : 2 ≤ n) (h1 : 1 ≤ x) (h2 : x ≤ n) :
    ∃ i : Nat, (if ⌊x⌋ = (n : Int) then (n : Int) - 1 else ⌊x⌋) = (i : Int) ∧ 1 ≤ i ∧ i + 1 ≤ n ∧ (i : ℚ) ≤ x ∧ x ≤ i + 1 := by
  have hf1 : (1 : Int) ≤ ⌊x⌋ := Int.le_floor.mpr (by exact_mod_cast h1)
  have hf2 : ⌊x⌋ ≤ (n : Int) := by
    have : ((⌊x⌋ : Int) : ℚ) ≤ (n : Int) := le_trans (Int.floor_le x) (by exact_mod_cast h2)
    exact_mod_cast this
  by_cases h : ⌊x⌋ = (n : Int)
  · refine ⟨n - 1, ?_, by omega, by omega, ?_, ?_⟩
    · rw [if_pos h]; omega
    · have := Int.floor_le x
      rw [h] at this
      push_cast at this
      push_cast [Nat.cast_sub (by omega : 1 ≤ n)]
      linarith
    · push_cast [Nat.cast_sub (by omega : 1 ≤ n)]
      linarith
  · obtain ⟨i, hi⟩ := Int.eq_ofNat_of_zero_le (by omega : 0 ≤ ⌊x⌋)
    refine ⟨i, by rw [if_neg h, hi], by omega, by omega, ?_, ?_⟩
    · have := Int.floor_le x
      rw [hi] at this; exact_mod_cast this
    · have := (Int.lt_floor_add_one x).le
      rw [hi] at this; exact_mod_cast this

theorem at2_in {z : Nat → Nat → ℚ} {ni nj i j : Nat} (h1 : 1 ≤ i) (h2 : i ≤ ni) (h3 : 1 ≤ j) (h4 : j ≤ nj) :
    at2 z ni nj i j = some (z i j) := by
  unfold at2
  rw [if_pos ⟨by omega, by omega, by omega, by omega⟩]
  simp

/-- C140.  Inside of a field of two points at least in each direction `BILIN` is the bilinear
interpolation, and reads no element outside of the field. -/
theorem C140 (z : Nat → Nat → ℚ) (ni nj : Nat) (x y : ℚ) (hi : 2 ≤ ni) (hj : 2 ≤ nj)
    (h : Inside ni nj x y) : ∃ v, bilin z ni nj x y true = some (v, true) ∧ Bilinear z ni nj x y v := by
  obtain ⟨hx1, hx2, hy1, hy2⟩ := h
  obtain ⟨i, hi0, hi1, hi2, hi3, hi4⟩ := cell_of hi hx1 hx2
  obtain ⟨j, hj0, hj1, hj2, hj3, hj4⟩ := cell_of hj hy1 hy2
  unfold bilin
  have hd : decide (1 ≤ x ∧ x ≤ ((ni : Int) : ℚ) ∧ 1 ≤ y ∧ y ≤ ((nj : Int) : ℚ)) = true := by
    simp [hx1, hx2, hy1, hy2]
  simp only [hd, Bool.and_self]
  rw [if_neg (by simp)]
  rw [hi0, hj0]
  have e1 := at2_in (z := z) (ni := ni) (nj := nj) hi1 (by omega) hj1 (by omega)
  have e2 := at2_in (z := z) (ni := ni) (nj := nj) hi1 (by omega) (by omega : 1 ≤ j + 1) hj2
  have e3 := at2_in (z := z) (ni := ni) (nj := nj) (by omega : 1 ≤ i + 1) hi2 hj1 (by omega)
  have e4 := at2_in (z := z) (ni := ni) (nj := nj) (by omega : 1 ≤ i + 1) hi2 (by omega : 1 ≤ j + 1) hj2
  push_cast at e2 e3 e4
  rw [e1, e2, e3, e4]
  refine ⟨_, rfl, i, j, hi1, hi2, hj1, hj2, hi3, hi4, hj3, hj4, ?_⟩
  push_cast
  ring

/-- Outside, or if `OK` was already false, the value is 0 and `OK` false. -/
theorem C140_outside (z : Nat → Nat → ℚ) (ni nj : Nat) (x y : ℚ) (ok : Bool)
    (h : ok = false ∨ ¬ Inside ni nj x y) : bilin z ni nj x y ok = some (0, false) := by
  unfold bilin
  have : (ok && decide (1 ≤ x ∧ x ≤ ((ni : Int) : ℚ) ∧ 1 ≤ y ∧ y ≤ ((nj : Int) : ℚ))) = false := by
    rcases h with h | h
    · simp [h]
    · unfold Inside at h
      rw [Bool.and_eq_false_iff]
      right
      rw [decide_eq_false_iff_not]
      exact_mod_cast h
  simp only [this]
  simp

/-- What follows from the interpolation: the values at the points of the field, the exactness for fields
that are bilinear, and the bounds. -/
theorem C140_exact (z : Nat → Nat → ℚ) (ni nj : Nat) (x y v a b c d : ℚ) (h : Bilinear z ni nj x y v)
    (hz : ∀ i j, 1 ≤ i → i ≤ ni → 1 ≤ j → j ≤ nj → z i j = a + b * i + c * j + d * i * j) :
    v = a + b * x + c * y + d * x * y := by
  obtain ⟨i, j, h1, h2, h3, h4, _, _, _, _, rfl⟩ := h
  rw [hz i j h1 (by omega) h3 (by omega), hz (i + 1) j (by omega) h2 h3 (by omega),
    hz i (j + 1) h1 (by omega) (by omega) h4, hz (i + 1) (j + 1) (by omega) h2 (by omega) h4]
  push_cast
  ring

theorem weight_node {i k : Nat} (h1 : (i : ℚ) ≤ (k : ℚ)) (h2 : (k : ℚ) ≤ i + 1) : k = i ∨ k = i + 1 := by
  have h1' : i ≤ k := by exact_mod_cast h1
  have h2' : k ≤ i + 1 := by exact_mod_cast h2
  omega

theorem C140_point (z : Nat → Nat → ℚ) (ni nj k l : Nat) (v : ℚ) (h : Bilinear z ni nj k l v) : v = z k l := by
  obtain ⟨i, j, _, _, _, _, h5, h6, h7, h8, rfl⟩ := h
  rcases weight_node h5 h6 with rfl | rfl <;> rcases weight_node h7 h8 with rfl | rfl <;> push_cast <;> ring

theorem C140_bounds (z : Nat → Nat → ℚ) (ni nj : Nat) (x y v lo hi : ℚ) (h : Bilinear z ni nj x y v)
    (hz : ∀ i j, 1 ≤ i → i ≤ ni → 1 ≤ j → j ≤ nj → lo ≤ z i j ∧ z i j ≤ hi) : lo ≤ v ∧ v ≤ hi := by
  obtain ⟨i, j, h1, h2, h3, h4, h5, h6, h7, h8, rfl⟩ := h
  have a1 := hz i j h1 (by omega) h3 (by omega)
  have a2 := hz (i + 1) j (by omega) h2 h3 (by omega)
  have a3 := hz i (j + 1) h1 (by omega) (by omega) h4
  have a4 := hz (i + 1) (j + 1) (by omega) h2 (by omega) h4
  have p := mul_nonneg (sub_nonneg.mpr h6) (sub_nonneg.mpr h8)
  have q := mul_nonneg (sub_nonneg.mpr h5) (sub_nonneg.mpr h8)
  have r := mul_nonneg (sub_nonneg.mpr h6) (sub_nonneg.mpr h7)
  have s := mul_nonneg (sub_nonneg.mpr h5) (sub_nonneg.mpr h7)
  constructor <;> nlinarith [mul_le_mul_of_nonneg_left a1.1 p, mul_le_mul_of_nonneg_left a1.2 p,
    mul_le_mul_of_nonneg_left a2.1 q, mul_le_mul_of_nonneg_left a2.2 q,
    mul_le_mul_of_nonneg_left a3.1 r, mul_le_mul_of_nonneg_left a3.2 r,
    mul_le_mul_of_nonneg_left a4.1 s, mul_le_mul_of_nonneg_left a4.2 s]

example : ∃ v, bilin (fun i j => (i * j : Nat)) (3 : Nat) (4 : Nat) (5 / 2) 4 true = some (v, true) ∧
    Bilinear (fun i j => (i * j : Nat)) 3 4 (5 / 2) 4 v :=
  C140 _ 3 4 _ _ (by decide) (by decide) (by norm_num [Inside])

example : bilin (fun i j => (i * j : Nat)) (3 : Nat) (4 : Nat) (5 / 2) 4 true = some (10, true) := by decide +kernel

/-- A field of one column is read outside of its bounds. -/
theorem C140_column_witness : bilin (fun i j => (i * j : Nat)) 1 4 1 2 true = none := by decide +kernel

theorem sections_stuck (z : Nat → Nat → ℚ) (ni nj : Nat) (x1 y1 dx dy : ℚ) (n : Nat) : ∀ k,
    sections z ni nj x1 y1 dx dy k n false = some (List.replicate n 0, false) := by
  induction n with
  | zero => intro k; rfl
  | succ n ih =>
    intro k
    simp only [sections]
    rw [C140_outside z ni nj _ _ false (Or.inl rfl)]
    simp only
    rw [ih (k + 1)]
    rfl

theorem sections_in (z : Nat → Nat → ℚ) (ni nj : Nat) (x1 y1 dx dy : ℚ) (hi : 2 ≤ ni) (hj : 2 ≤ nj) (n : Nat) :
    ∀ k, (∀ m, k ≤ m → m < k + n → Inside ni nj (x1 + m * dx) (y1 + m * dy)) →
    ∃ l, sections z ni nj x1 y1 dx dy k n true = some (l, true) ∧ l.length = n ∧
      ∀ m v, l[m]? = some v → Bilinear z ni nj (x1 + (k + m : Nat) * dx) (y1 + (k + m : Nat) * dy) v := by
  induction n with
  | zero => intro k _; exact ⟨[], rfl, rfl, by simp⟩
  | succ n ih =>
    intro k hin
    obtain ⟨v, hv, hb⟩ := C140 z ni nj _ _ hi hj (hin k (le_refl _) (by omega))
    obtain ⟨l, hl, hlen, hl'⟩ := ih (k + 1) (fun m h1 h2 => hin m (by omega) (by omega))
    refine ⟨v :: l, ?_, by simp [hlen], ?_⟩
    · simp only [sections, hv, hl]
    · intro m w hw
      cases m with
      | zero => simp at hw; subst hw; exact hb
      | succ m =>
        simp only [List.getElem?_cons_succ] at hw
        have := hl' m w hw
        rwa [(by omega : k + 1 + m = k + (m + 1))] at this

/-- The points of a section between two points of the field are in the field. -/
theorem section_inside {ni nj np : Nat} {x1 y1 x2 y2 : ℚ} (hnp : 2 ≤ np) (h1 : Inside ni nj x1 y1)
    (h2 : Inside ni nj x2 y2) (m : Nat) (hm : m < np) :
    Inside ni nj (x1 + m * ((x2 - x1) / ((np : ℚ) - 1))) (y1 + m * ((y2 - y1) / ((np : ℚ) - 1))) := by
  have hd : (0 : ℚ) < (np : ℚ) - 1 := by
    have : (2 : ℚ) ≤ np := by exact_mod_cast hnp
    linarith
  have hm' : (m : ℚ) ≤ (np : ℚ) - 1 := by
    have : m + 1 ≤ np := hm
    have : ((m + 1 : Nat) : ℚ) ≤ np := by exact_mod_cast this
    push_cast at this; linarith
  obtain ⟨t, ht⟩ : ∃ t : ℚ, t = m / ((np : ℚ) - 1) := ⟨_, rfl⟩
  have ht0 : 0 ≤ t := by rw [ht]; positivity
  have ht1 : t ≤ 1 := by rw [ht, div_le_one hd]; exact hm'
  have e : ∀ u w : ℚ, u + m * ((w - u) / ((np : ℚ) - 1)) = (1 - t) * u + t * w := by
    intro u w; rw [ht]; field_simp; ring
  rw [e, e]
  obtain ⟨a1, a2, a3, a4⟩ := h1
  obtain ⟨b1, b2, b3, b4⟩ := h2
  have hs : 0 ≤ 1 - t := by linarith
  refine ⟨?_, ?_, ?_, ?_⟩ <;> nlinarith

/-- C140, sections.  Between two points of the field `COUPE` gives the bilinear interpolation at equal
distances, from the one to the other. -/
theorem C140_section (z : Nat → Nat → ℚ) (ni nj np : Nat) (x1 y1 x2 y2 : ℚ) (hi : 2 ≤ ni) (hj : 2 ≤ nj)
    (hnp : 2 ≤ np) (h1 : Inside ni nj x1 y1) (h2 : Inside ni nj x2 y2) :
    ∃ l, coupe np z ni nj x1 y1 x2 y2 = some (l, true) ∧ l.length = np ∧
      ∀ (m : Nat) (v : ℚ), l[m]? = some v → Bilinear z ni nj (x1 + m * ((x2 - x1) / ((np : ℚ) - 1)))
        (y1 + m * ((y2 - y1) / ((np : ℚ) - 1))) v := by
  unfold coupe
  rw [if_neg (by omega)]
  obtain ⟨l, hl, hlen, hl'⟩ := sections_in z ni nj x1 y1 ((x2 - x1) / ((np : ℚ) - 1)) ((y2 - y1) / ((np : ℚ) - 1))
    hi hj np 0 (fun m _ hm => section_inside hnp h1 h2 m (by omega))
  refine ⟨l, hl, hlen, fun m v hv => ?_⟩
  have := hl' m v hv
  rwa [Nat.zero_add] at this

example : coupe 3 (fun i j => (i * j : Nat)) (3 : Nat) (4 : Nat) 1 1 3 4 = some ([1, 5, 12], true) := by decide +kernel

/-- A section that begins outside is 0 at all points, also at those inside of the field. -/
theorem C140_begin (z : Nat → Nat → ℚ) (ni nj np : Nat) (x1 y1 x2 y2 : ℚ) (hnp : 2 ≤ np)
    (h : ¬ Inside ni nj x1 y1) : coupe np z ni nj x1 y1 x2 y2 = some (List.replicate np 0, false) := by
  unfold coupe
  rw [if_neg (by omega)]
  obtain ⟨n, rfl⟩ : ∃ n, np = n + 1 := ⟨np - 1, by omega⟩
  simp only [sections]
  rw [C140_outside z ni nj _ _ true (Or.inr (by simpa using h))]
  simp only
  rw [sections_stuck]
  rfl

example : coupe 3 (fun _ _ => 7) (3 : Nat) (3 : Nat) 0 2 3 2 = some ([0, 0, 0], false) :=
  C140_begin _ 3 3 3 _ _ _ _ (by decide) (by norm_num [Inside])

/-- A section of one point divides by zero. -/
theorem C140_one_witness : coupe 1 (fun _ _ => 7) 3 3 2 2 2 2 = none := by decide +kernel

/-! # C141: Lagrange interpolation -/

theorem factors_some (zz : ℚ) (z : Nat → ℚ) (i : Nat) (m : Nat) : ∀ j p,
    (∀ k, j ≤ k → k < j + m → k ≠ i → z k ≠ z i) →
    factors zz z i j m p = some (p * ∏ k ∈ (Finset.Ico j (j + m)).erase i, ((zz - z k) / (z i - z k))) := by
  induction m with
  | zero => intro j p _; simp [factors]
  | succ m ih =>
    intro j p hz
    have hico : Finset.Ico j (j + (m + 1)) = insert j (Finset.Ico (j + 1) (j + 1 + m)) := by
      ext x; simp; omega
    simp only [factors]
    by_cases hj : j = i
    · rw [if_pos hj, ih (j + 1) p (fun k h1 h2 h3 => hz k (by omega) (by omega) h3), hico, hj]
      congr 3
      ext x; simp
    · rw [if_neg hj]
      have hne : z i - z j ≠ 0 := sub_ne_zero.mpr (fun h => hz j (le_refl _) (by omega) hj h.symm)
      rw [if_neg hne, ih (j + 1) _ (fun k h1 h2 h3 => hz k (by omega) (by omega) h3), hico,
        Finset.erase_insert_of_ne hj, Finset.prod_insert (by simp)]
      congr 1
      ring

theorem factors_none (zz : ℚ) (z : Nat → ℚ) (i : Nat) (m : Nat) : ∀ j p k,
    j ≤ k → k < j + m → k ≠ i → z k = z i → factors zz z i j m p = none := by
  induction m with
  | zero => intro j p k h1 h2; omega
  | succ m ih =>
    intro j p k h1 h2 h3 h4
    simp only [factors]
    by_cases hk : k = j
    · subst hk; rw [if_neg h3, if_pos (by rw [h4]; ring)]
    · by_cases hj : j = i
      · rw [if_pos hj]; exact ih (j + 1) p k (by omega) (by omega) h3 h4
      · rw [if_neg hj]
        split
        · rfl
        · exact ih (j + 1) _ k (by omega) (by omega) h3 h4

theorem terms_some (zz : ℚ) (f z : Nat → ℚ) (n m : Nat) : ∀ i s, i + m ≤ n →
    (∀ k l, k < n → l < n → k ≠ l → z k ≠ z l) →
    terms zz f z n i m s = some (s + ∑ k ∈ Finset.Ico i (i + m),
      f k * ∏ l ∈ (Finset.range n).erase k, ((zz - z l) / (z k - z l))) := by
  induction m with
  | zero => intro i s _ _; simp [terms]
  | succ m ih =>
    intro i s hi hz
    simp only [terms]
    rw [factors_some zz z i n 0 1 (fun k _ h2 h3 => hz k i (by omega) (by omega) h3)]
    simp only
    rw [ih (i + 1) _ (by omega) hz, Finset.sum_eq_sum_Ico_succ_bot (by omega : i < i + (m + 1)),
      (by omega : i + 1 + m = i + (m + 1))]
    congr 1
    rw [zero_add, Nat.Ico_zero_eq_range]
    ring

/-- C141.  At any point `POLAGR` is the value of the polynomial of degree at most N that takes the given
values at the given points, if these differ. -/
theorem C141 (zz : ℚ) (f z : Nat → ℚ) (n : Nat) (hz : ∀ k l, k < n → l < n → k ≠ l → z k ≠ z l)
    (P : Polynomial ℚ) (hd : P.degree < n) (hP : ∀ k, k < n → P.eval (z k) = f k) :
    polagr zz f z n = some (P.eval zz) := by
  unfold polagr
  rw [terms_some zz f z n n 0 0 (by omega) hz]
  congr 1
  have hinj : Set.InjOn z (Finset.range n : Finset Nat) := by
    intro a ha b hb hab
    by_contra hne
    exact hz a b (by simpa using ha) (by simpa using hb) hne hab
  have hPe : P = Lagrange.interpolate (Finset.range n) z f :=
    Lagrange.eq_interpolate_of_eval_eq (r := f) hinj (by simpa using hd) (fun i hi => hP i (by simpa using hi))
  conv_rhs => rw [hPe]
  rw [Lagrange.interpolate_apply, Polynomial.eval_finsetSum, zero_add, Nat.zero_add, Nat.Ico_zero_eq_range]
  refine Finset.sum_congr rfl fun k _ => ?_
  rw [Polynomial.eval_mul, Polynomial.eval_C, Lagrange.basis, Polynomial.eval_prod]
  congr 1
  refine Finset.prod_congr rfl fun l _ => ?_
  simp [Lagrange.basisDivisor, div_eq_mul_inv, mul_comm]

/-- There is always such a polynomial, so that the result takes the given values. -/
theorem C141_points (f z : Nat → ℚ) (n k : Nat) (hz : ∀ k l, k < n → l < n → k ≠ l → z k ≠ z l) (hk : k < n) :
    polagr (z k) f z n = some (f k) := by
  have hinj : Set.InjOn z (Finset.range n : Finset Nat) := by
    intro a ha b hb hab
    by_contra hne
    exact hz a b (by simpa using ha) (by simpa using hb) hne hab
  have hv : ∀ i, i < n → (Lagrange.interpolate (Finset.range n) z f).eval (z i) = f i := fun i hi =>
    Lagrange.eval_interpolate_at_node f hinj (by simpa using hi)
  rw [C141 (z k) f z n hz (Lagrange.interpolate (Finset.range n) z f)
    (by simpa using Lagrange.degree_interpolate_lt f hinj) hv, hv k hk]

theorem terms_none (zz : ℚ) (f z : Nat → ℚ) (n m : Nat) : ∀ i s k l, i ≤ k → k < i + m → l < n → l ≠ k →
    z l = z k → terms zz f z n i m s = none := by
  induction m with
  | zero => intro i s k l h1 h2; omega
  | succ m ih =>
    intro i s k l h1 h2 h3 h4 h5
    simp only [terms]
    by_cases hi : i = k
    · subst hi; rw [factors_none zz z i n 0 1 l (by omega) (by omega) h4 h5]
    · split
      · rfl
      · exact ih (i + 1) _ k l (by omega) (by omega) h3 h4 h5

/-- If two points are the same there is a division by zero. -/
theorem C141_same (zz : ℚ) (f z : Nat → ℚ) (n k l : Nat) (hk : k < n) (hl : l < n) (hkl : l ≠ k)
    (h : z l = z k) : polagr zz f z n = none :=
  terms_none zz f z n n 0 0 k l (by omega) (by omega) hl hkl h

example : polagr 3 (fun k => (k * k * k : Nat)) (fun k => (k : ℚ)) 3 = some 21 ∧
    polagr 3 (fun k => (k * k : Nat)) (fun k => (k : ℚ)) 3 = some 9 := by decide +kernel

/-! # C142: rows reversed, products of matrices, order of bytes -/

theorem swapRow_spec {α : Type} (ni nj : Nat) (j : Nat) (h1 : 1 ≤ j) (h2 : 2 * j ≤ nj) (n : Nat) :
    ∀ (i : Nat) (z : Int → α), 1 ≤ i → i + n ≤ ni + 1 → ∀ (a : Nat) (b : Nat), 1 ≤ a → a ≤ ni → 1 ≤ b → b ≤ nj →
    swapRow (ni : Int) nj j n i z ((a : Int) - 1 + ((b : Int) - 1) * ni) =
      if (b = j ∨ b = nj + 1 - j) ∧ i ≤ a ∧ a < i + n then z ((a : Int) - 1 + ((nj : Int) + 1 - b - 1) * ni)
      else z ((a : Int) - 1 + ((b : Int) - 1) * ni) := by
  have key : ∀ (a a' : Nat) (b b' : Int), 1 ≤ a → a ≤ ni → 1 ≤ a' → a' ≤ ni →
      ((a : Int) - 1 + (b - 1) * ni = (a' : Int) - 1 + (b' - 1) * ni ↔ a = a' ∧ b = b') := by
    intro a a' b b' ha1 ha2 hb1 hb2
    constructor
    · intro h
      have hni : (0 : Int) < ni := by omega
      have e : (b - b') * (ni : Int) = (a' : Int) - a := by linarith
      have hb : b = b' := by
        by_contra hne
        rcases lt_or_gt_of_ne hne with hlt | hgt
        · have : (b - b') * (ni : Int) ≤ -1 * ni := mul_le_mul_of_nonneg_right (by omega) hni.le
          omega
        · have : 1 * (ni : Int) ≤ (b - b') * ni := mul_le_mul_of_nonneg_right (by omega) hni.le
          omega
      subst hb
      refine ⟨?_, rfl⟩
      simp at e; omega
    · rintro ⟨rfl, rfl⟩; rfl
  induction n with
  | zero =>
    intro i z _ _ a b _ _ _ _
    rw [if_neg (by omega)]; rfl
  | succ n ih =>
    intro i z hi hin a b ha1 ha2 hb1 hb2
    simp only [swapRow]
    have hcast : ((i : Int) + 1) = ((i + 1 : Nat) : Int) := by push_cast; rfl
    rw [hcast, ih (i + 1) _ (by omega) (by omega) a b ha1 ha2 hb1 hb2]
    have hsw : ∀ (c : Nat) (d : Int), 1 ≤ c → c ≤ ni →
        swap1 z (ni : Int) nj i j ((c : Int) - 1 + (d - 1) * ni) =
        if c = i ∧ d = j then z ((i : Int) - 1 + ((nj : Int) + 1 - j - 1) * ni)
        else if c = i ∧ d = (nj : Int) + 1 - j then z ((i : Int) - 1 + ((j : Int) - 1) * ni)
        else z ((c : Int) - 1 + (d - 1) * ni) := by
      intro c d hc1 hc2
      simp only [swap1, put]
      simp only [key c i d j hc1 hc2 hi (by omega), key c i d ((nj : Int) + 1 - j) hc1 hc2 hi (by omega)]
    rw [hsw a ((nj : Int) + 1 - b) ha1 ha2, hsw a b ha1 ha2]
    split_ifs <;>
      first
      | rfl
      | omega
      | (have e1 : a = i := by omega
         have e2 : (b : Int) = j := by omega
         rw [e1, e2])
      | (have e1 : a = i := by omega
         have e2 : (b : Int) = (nj : Int) + 1 - j := by omega
         rw [e1, e2]; congr 3; omega)

theorem swapRows_spec {α : Type} (ni nj : Nat) (n : Nat) : ∀ (j : Nat) (z : Int → α), 1 ≤ j → 2 * (j + n) ≤ nj + 2 →
    ∀ (a b : Nat), 1 ≤ a → a ≤ ni → 1 ≤ b → b ≤ nj →
    swapRows ni (nj : Int) n j z ((a : Int) - 1 + ((b : Int) - 1) * ni) =
      if (j ≤ b ∧ b < j + n) ∨ (j ≤ nj + 1 - b ∧ nj + 1 - b < j + n) then
        z ((a : Int) - 1 + ((nj : Int) + 1 - b - 1) * ni)
      else z ((a : Int) - 1 + ((b : Int) - 1) * ni) := by
  induction n with
  | zero => intro j z _ _ a b _ _ _ _; rw [if_neg (by omega)]; rfl
  | succ n ih =>
    intro j z hj hn a b ha1 ha2 hb1 hb2
    simp only [swapRows]
    have hcast : ((j : Int) + 1) = ((j + 1 : Nat) : Int) := by push_cast; rfl
    rw [hcast, ih (j + 1) _ (by omega) (by omega) a b ha1 ha2 hb1 hb2]
    have e := swapRow_spec (α := α) ni nj j hj (by omega) ni 1 z (le_refl _) (by omega) a
    have hb' : ((nj : Int) + 1 - b - 1) = (((nj + 1 - b : Nat) : Int) - 1) := by omega
    rw [hb']
    push_cast at e
    rw [e (nj + 1 - b) ha1 ha2 (by omega) (by omega), e b ha1 ha2 hb1 hb2]
    have hbb : ((nj : Int) + 1 - ((nj + 1 - b : Nat) : Int) - 1) = (b : Int) - 1 := by omega
    rw [hbb, hb']
    split_ifs <;> first | rfl | omega

/-- C142, `PERMUT`: row `b` of the result is row `nj+1-b` of the field. -/
theorem C142_rows {α : Type} (z : Int → α) (ni nj a b : Nat) (ha1 : 1 ≤ a) (ha2 : a ≤ ni) (hb1 : 1 ≤ b)
    (hb2 : b ≤ nj) :
    permut z ni nj ((a : Int) - 1 + ((b : Int) - 1) * ni) = z ((a : Int) - 1 + (((nj + 1 - b : Nat) : Int) - 1) * ni) := by
  unfold permut
  have h := swapRows_spec ni nj (nj / 2) 1 z (le_refl _) (by omega) a b ha1 ha2 hb1 hb2
  push_cast at h
  rw [h]
  have hb' : ((nj : Int) + 1 - b - 1) = (((nj + 1 - b : Nat) : Int) - 1) := by omega
  rw [hb']
  split_ifs with hc
  · rfl
  · have : nj + 1 - b = b := by omega
    rw [this]

example : (List.range 6).map (fun k => permut (fun i => i) 2 3 k) = [4, 5, 2, 3, 0, 1] := by decide +kernel

/-- Twice gives the field again. -/
theorem C142_twice {α : Type} (z : Int → α) (ni nj a b : Nat) (ha1 : 1 ≤ a) (ha2 : a ≤ ni) (hb1 : 1 ≤ b)
    (hb2 : b ≤ nj) :
    permut (permut z ni nj) ni nj ((a : Int) - 1 + ((b : Int) - 1) * ni) = z ((a : Int) - 1 + ((b : Int) - 1) * ni) := by
  rw [C142_rows _ ni nj a b ha1 ha2 hb1 hb2, C142_rows _ ni nj a _ ha1 ha2 (by omega) (by omega)]
  congr 3
  omega

theorem dot_spec (a b : Int → ℚ) (ar bc iad nb p : Int) (n : Nat) : ∀ (ac br : Int) (c : Int → ℚ) (q : Int),
    dot a b ar bc iad nb p n ac br c q =
      if q = p then c p + ∑ k ∈ Finset.range n, a (ar + (ac + k * iad) - 2) * b (br + k * nb + bc - 2) else c q := by
  induction n with
  | zero => intro ac br c q; simp [dot]; intro h; rw [h]
  | succ n ih =>
    intro ac br c q
    simp only [dot]
    rw [ih]
    by_cases hq : q = p
    · rw [if_pos hq, if_pos hq, Finset.sum_range_succ']
      simp only [put, if_pos]
      have : ∀ k : Nat, a (ar + (ac + iad + k * iad) - 2) * b (br + nb + k * nb + bc - 2) =
          a (ar + (ac + ((k + 1 : Nat) : Int) * iad) - 2) * b (br + ((k + 1 : Nat) : Int) * nb + bc - 2) := by
        intro k; push_cast; congr 2 <;> ring
      simp only [this]
      push_cast
      simp
      ring
    · rw [if_neg hq, if_neg hq]; simp [put, hq]

theorem mxCol_spec (a b : Int → ℚ) (na iad nb nc : Int) (nac : Nat) (bc cc : Int) (n : Nat) :
    ∀ (cr ar : Int) (c : Int → ℚ),
    (∀ q, (∀ i : Nat, i < n → q ≠ cr + i * nc + cc - 2) →
      mxCol a b na iad nb nc nac bc cc n cr ar c q = c q) ∧
    ((∀ i i' : Nat, i < n → i' < n → (i : Int) * nc = i' * nc → i = i') → ∀ i : Nat, i < n →
      mxCol a b na iad nb nc nac bc cc n cr ar c (cr + i * nc + cc - 2) =
        ∑ k ∈ Finset.range nac, a (ar + i * na + (1 + k * iad) - 2) * b (1 + k * nb + bc - 2)) := by
  induction n with
  | zero => intro cr ar c; exact ⟨fun q _ => rfl, fun _ i hi => absurd hi (by omega)⟩
  | succ n ih =>
    intro cr ar c
    obtain ⟨h1, h2⟩ := ih (cr + nc) (ar + na)
      (dot a b ar bc iad nb (cr + cc - 2) nac 1 1 (put c (cr + cc - 2) 0))
    have hsh : ∀ i : Nat, cr + nc + i * nc + cc - 2 = cr + ((i + 1 : Nat) : Int) * nc + cc - 2 := by
      intro i; push_cast; ring
    constructor
    · intro q hq
      simp only [mxCol]
      rw [h1 q (fun i hi => by rw [hsh]; exact hq (i + 1) (by omega)), dot_spec]
      have h0 := hq 0 (by omega)
      have hne : q ≠ cr + cc - 2 := fun h => h0 (by rw [h]; simp)
      rw [if_neg hne]; simp [put, hne]
    · intro hinj i hi
      simp only [mxCol]
      cases i with
      | zero =>
        rw [h1 _ (fun i hi' => by
          rw [hsh]
          intro he
          have := hinj 0 (i + 1) (by omega) (by omega) (by linarith)
          omega), dot_spec, if_pos (by simp)]
        simp [put]
      | succ i =>
        rw [← hsh, h2 (fun i i' hi hi' he => by
          have := hinj (i + 1) (i' + 1) (by omega) (by omega) (by push_cast; linarith)
          omega) i (by omega)]
        refine Finset.sum_congr rfl fun k _ => ?_
        push_cast
        congr 2; ring

theorem mxCols_spec (a b : Int → ℚ) (na iad nb ibd nc icd : Int) (nar nac : Nat) (n : Nat) :
    ∀ (bc cc : Int) (c : Int → ℚ),
    (∀ q, (∀ i j : Nat, i < nar → j < n → q ≠ 1 + i * nc + (cc + j * icd) - 2) →
      mxCols a b na iad nb ibd nc icd nar nac n bc cc c q = c q) ∧
    ((∀ i j i' j' : Nat, i < nar → j < n → i' < nar → j' < n →
        (i : Int) * nc + j * icd = i' * nc + j' * icd → i = i' ∧ j = j') → ∀ i j : Nat, i < nar → j < n →
      mxCols a b na iad nb ibd nc icd nar nac n bc cc c (1 + i * nc + (cc + j * icd) - 2) =
        ∑ k ∈ Finset.range nac, a (1 + i * na + (1 + k * iad) - 2) * b (1 + k * nb + (bc + j * ibd) - 2)) := by
  induction n with
  | zero => intro bc cc c; exact ⟨fun q _ => rfl, fun _ i j _ hj => absurd hj (by omega)⟩
  | succ n ih =>
    intro bc cc c
    obtain ⟨h1, h2⟩ := ih (bc + ibd) (cc + icd) (mxCol a b na iad nb nc nac bc cc nar 1 1 c)
    obtain ⟨g1, g2⟩ := mxCol_spec a b na iad nb nc nac bc cc nar 1 1 c
    have hsh : ∀ i j : Nat, 1 + (i : Int) * nc + (cc + icd + j * icd) - 2 =
        1 + i * nc + (cc + ((j + 1 : Nat) : Int) * icd) - 2 := by intro i j; push_cast; ring
    constructor
    · intro q hq
      simp only [mxCols]
      rw [h1 q (fun i j hi hj => by rw [hsh]; exact hq i (j + 1) hi (by omega)),
        g1 q (fun i hi => by
          have := hq i 0 hi (by omega)
          simp only [Nat.cast_zero, zero_mul, add_zero] at this
          exact this)]
    · intro hinj i j hi hj
      simp only [mxCols]
      cases j with
      | zero =>
        rw [h1 _ (fun i' j' hi' hj' => by
          rw [hsh]
          intro he
          have := hinj i 0 i' (j' + 1) hi (by omega) hi' (by omega) (by linarith)
          omega)]
        have := g2 (fun i i' hi hi' he => (hinj i 0 i' 0 hi (by omega) hi' (by omega) (by simpa using he)).1) i hi
        simp only [Nat.cast_zero, zero_mul, add_zero]
        exact this
      | succ j =>
        rw [← hsh, h2 (fun i j i' j' hi hj hi' hj' he => by
          have := hinj i (j + 1) i' (j' + 1) hi (by omega) hi' (by omega) (by push_cast; linarith)
          omega) i j hi (by omega)]
        refine Finset.sum_congr rfl fun k _ => ?_
        push_cast
        congr 2; ring

/-- C142, `mxma`: each element of the result is the product of a row and a column, whatever the distances
between the elements, provided that those of the result do not meet; and nothing else is written. -/
theorem C142_product (a b c : Int → ℚ) (na iad nb ibd nc icd : Int) (nar nac nbc : Nat) :
    ((∀ i j i' j' : Nat, i < nar → j < nbc → i' < nar → j' < nbc →
        (i : Int) * nc + j * icd = i' * nc + j' * icd → i = i' ∧ j = j') → ∀ i j : Nat, i < nar → j < nbc →
      mxma a na iad b nb ibd c nc icd nar nac nbc (i * nc + j * icd) =
        ∑ k ∈ Finset.range nac, a (i * na + k * iad) * b (k * nb + j * ibd)) ∧
    (∀ q, (∀ i j : Nat, i < nar → j < nbc → q ≠ i * nc + j * icd) →
      mxma a na iad b nb ibd c nc icd nar nac nbc q = c q) := by
  obtain ⟨h1, h2⟩ := mxCols_spec a b na iad nb ibd nc icd nar nac nbc 1 1 c
  refine ⟨fun hinj i j hi hj => ?_, fun q hq => ?_⟩
  · have := h2 hinj i j hi hj
    unfold mxma
    rw [(by ring : (i : Int) * nc + j * icd = 1 + i * nc + (1 + j * icd) - 2), this]
    refine Finset.sum_congr rfl fun k _ => ?_
    congr 2 <;> ring
  · exact h1 q (fun i j hi hj => by
      have := hq i j hi hj
      rw [(by ring : (1 : Int) + i * nc + (1 + j * icd) - 2 = i * nc + j * icd)]
      exact this)

/-- A product of 2 by 3 and 3 by 2, the second transposed. -/
example : (List.range 4).map (fun k => mxma (fun i => i) 1 2 (fun i => i) 2 1 (fun _ => 9) 1 2 2 3 2 k) =
    [20, 26, 26, 35] := by decide +kernel

example : ∀ i j i' j' : Nat, i < 2 → j < 2 → i' < 2 → j' < 2 →
    (i : Int) * 1 + j * 2 = i' * 1 + j' * 2 → i = i' ∧ j = j' := by omega

/-- C142, `move3216` exchanges the halves of each word and `move832` reverses its bytes. -/
theorem C142_halves (x : BitVec 32) (i : Nat) (hi : i < 32) :
    (move3216 x).getLsbD i = x.getLsbD ((i + 16) % 32) := by
  have hm : (65535#32) = (BitVec.allOnes 32) >>> 16 := by decide
  unfold move3216
  rw [hm]
  simp only [BitVec.getLsbD_or, BitVec.getLsbD_shiftLeft, BitVec.getLsbD_and, BitVec.getLsbD_ushiftRight,
    BitVec.getLsbD_allOnes]
  by_cases h : i < 16
  · have e : (i + 16) % 32 = 16 + i := by omega
    simp [h, e]; omega
  · have e : (i + 16) % 32 = i - 16 := by omega
    have h2 : x.getLsbD (16 + i) = false := BitVec.getLsbD_of_ge _ _ (by omega)
    simp [h, e, hi, h2]

theorem C142_bytes (x : BitVec 32) : move832 x =
    (x.extractLsb' 0 8 ++ x.extractLsb' 8 8 ++ x.extractLsb' 16 8 ++ x.extractLsb' 24 8 : BitVec 32) := by
  apply BitVec.eq_of_getLsbD_eq
  intro i hi
  unfold move832
  simp only [BitVec.getLsbD_or, BitVec.getLsbD_shiftLeft, BitVec.getLsbD_and, BitVec.getLsbD_ushiftRight,
    BitVec.getLsbD_append, BitVec.getLsbD_extractLsb']
  interval_cases i <;> simp

/-- Both give the word again when applied twice. -/
theorem C142_again (x : BitVec 32) : move3216 (move3216 x) = x ∧ move832 (move832 x) = x := by
  constructor
  · apply BitVec.eq_of_getLsbD_eq
    intro i hi
    rw [C142_halves _ i hi, C142_halves _ _ (by omega)]
    congr 1; omega
  · rw [C142_bytes (move832 x), C142_bytes x]
    apply BitVec.eq_of_getLsbD_eq
    intro i hi
    simp only [BitVec.getLsbD_append, BitVec.getLsbD_extractLsb']
    interval_cases i <;> simp

example : move3216 0x12345678#32 = 0x56781234#32 ∧ move832 0x12345678#32 = 0x78563412#32 := by decide

end Verif.Field
