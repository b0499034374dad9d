import Verif.Spline
import Mathlib.Tactic
import Verif.Props.Tridiag
import Mathlib.Algebra.Polynomial.Derivative

namespace Verif.Spline

/-! # C131 to C133: cubic splines -/

open Verif.Tridiag Polynomial

/-- A piecewise cubic through the points whose first and second derivatives are continuous. -/
structure IsSpline (n : Nat) (x f : Nat → ℚ) (S : Nat → ℚ[X]) : Prop where
  degree : ∀ j, j + 1 < n → (S j).natDegree ≤ 3
  left : ∀ j, j + 1 < n → (S j).eval (x j) = f j
  right : ∀ j, j + 1 < n → (S j).eval (x (j + 1)) = f (j + 1)
  slope : ∀ j, j + 2 < n → (derivative (S j)).eval (x (j + 1)) = (derivative (S (j + 1))).eval (x (j + 1))
  bend : ∀ j, j + 2 < n →
    (derivative (derivative (S j))).eval (x (j + 1)) = (derivative (derivative (S (j + 1)))).eval (x (j + 1))

/-- The lines of the system. -/
structure Lines (S H : Nat → ℚ) (a c d : Nat) (junk : Mem) (k : Nat) (m : Mem) : Prop where
  ha : ∀ i, 0 < i → i ≤ k → m (a + i) = H i * ((1 / 2) / (H i + H (i - 1)))
  hc : ∀ i, 0 < i → i ≤ k → m (c + i) = H (i - 1) * ((1 / 2) / (H i + H (i - 1)))
  hd : ∀ i, 0 < i → i ≤ k → m (d + i) =
    3 * ((S i - S (i - 1)) * (H i / H (i - 1)) + (S (i + 1) - S i) / (H i / H (i - 1))) * ((1 / 2) / (H i + H (i - 1)))

theorem lines_spec {S H : Nat → ℚ} {n : Nat} {junk : Mem} (hpos : ∀ i, i + 1 < n → 0 < H i) :
    ∀ k, k + 1 < n → ∃ m, lines S H n (2 * n) (3 * n) junk k = some m ∧ Lines S H n (2 * n) (3 * n) junk k m := by
  intro k
  induction k with
  | zero => intro _; exact ⟨junk, rfl, ⟨fun i h1 h2 => by omega, fun i h1 h2 => by omega, fun i h1 h2 => by omega⟩⟩
  | succ k ih =>
    intro hk
    obtain ⟨m, hm, hl⟩ := ih (by omega)
    have h1 := hpos (k + 1) hk
    have h2 := hpos k (by omega)
    rw [lines, hm]
    simp only [Option.bind_some, line, Nat.add_sub_cancel]
    rw [if_neg (by rintro (h | h | h) <;> linarith)]
    refine ⟨_, rfl, ?_⟩
    constructor
    · intro i hi hik
      rw [set_ne (by omega), set_ne (by omega)]
      rcases Nat.lt_or_ge i (k + 1) with hik' | hik'
      · rw [set_ne (by omega), hl.ha i hi (by omega)]
      · obtain rfl : i = k + 1 := by omega
        rw [set_same, Nat.add_sub_cancel]
    · intro i hi hik
      rw [set_ne (by omega)]
      rcases Nat.lt_or_ge i (k + 1) with hik' | hik'
      · rw [set_ne (by omega), set_ne (by omega), hl.hc i hi (by omega)]
      · obtain rfl : i = k + 1 := by omega
        rw [set_same, Nat.add_sub_cancel]
    · intro i hi hik
      rcases Nat.lt_or_ge i (k + 1) with hik' | hik'
      · rw [set_ne (by omega), set_ne (by omega), set_ne (by omega), hl.hd i hi (by omega)]
      · obtain rfl : i = k + 1 := by omega
        rw [set_same, Nat.add_sub_cancel]

theorem layout (n : Nat) : Layout 0 n (3 * n) (2 * n) (3 * n) n := by
  constructor
  case ed => exact Or.inl rfl
  case pc => right; unfold Apart; omega
  case ea => right; unfold Apart; omega
  case ec => right; unfold Apart; omega
  all_goals unfold Apart; omega

/-- The equations for the derivatives at the points. -/
structure Slopes (n : Nat) (f h fx : Nat → ℚ) (cmu1 c1 clmdam cm : ℚ) : Prop where
  first : fx 0 + cmu1 * fx 1 = c1
  last : clmdam * fx (n - 2) + fx (n - 1) = cm
  inside : ∀ i, 0 < i → i + 1 < n → h i * ((1 / 2) / (h i + h (i - 1))) * fx (i - 1) + fx i +
      h (i - 1) * ((1 / 2) / (h i + h (i - 1))) * fx (i + 1) =
    3 * ((f i - f (i - 1)) * (h i / h (i - 1)) + (f (i + 1) - f i) / (h i / h (i - 1))) * ((1 / 2) / (h i + h (i - 1)))

theorem spd_slopes {n : Nat} (hn : 2 ≤ n) {f h : Nat → ℚ} (hpos : ∀ i, i + 1 < n → 0 < h i) {cmu1 c1 clmdam cm : ℚ}
    (h1 : |cmu1| < 1) (h2 : |clmdam| < 1) (junk : Mem) :
    ∃ fx, spd n f h cmu1 c1 clmdam cm junk = some fx ∧ Slopes n f h fx cmu1 c1 clmdam cm ∧
      ∀ gx, Slopes n f h gx cmu1 c1 clmdam cm → ∀ i < n, gx i = fx i := by
  obtain ⟨m, hm, hl⟩ := lines_spec (S := f) (junk := junk) hpos (n - 2) (by omega)
  have ec0 : ends n n (2 * n) (3 * n) cmu1 c1 clmdam cm m (2 * n) = cmu1 := by
    simp only [ends]; rw [set_ne (by omega), set_ne (by omega), set_ne (by omega), set_same]
  have ea1 : ends n n (2 * n) (3 * n) cmu1 c1 clmdam cm m (n + (n - 1)) = clmdam := by
    simp only [ends]; rw [set_ne (by omega), set_ne (by omega), set_same]
  have ed0 : ends n n (2 * n) (3 * n) cmu1 c1 clmdam cm m (3 * n) = c1 := by
    simp only [ends]; rw [set_ne (by omega), set_same]
  have ed1 : ends n n (2 * n) (3 * n) cmu1 c1 clmdam cm m (3 * n + (n - 1)) = cm := by
    simp only [ends]; rw [set_same]
  have ea : ∀ i, 0 < i → i + 1 < n → ends n n (2 * n) (3 * n) cmu1 c1 clmdam cm m (n + i) =
      h i * ((1 / 2) / (h i + h (i - 1))) := by
    intro i hi hin
    simp only [ends]
    rw [set_ne (by omega), set_ne (by omega), set_ne (by omega), set_ne (by omega), hl.ha i hi (by omega)]
  have ec : ∀ i, 0 < i → i + 1 < n → ends n n (2 * n) (3 * n) cmu1 c1 clmdam cm m (2 * n + i) =
      h (i - 1) * ((1 / 2) / (h i + h (i - 1))) := by
    intro i hi hin
    simp only [ends]
    rw [set_ne (by omega), set_ne (by omega), set_ne (by omega), set_ne (by omega), hl.hc i hi (by omega)]
  have ed : ∀ i, 0 < i → i + 1 < n → ends n n (2 * n) (3 * n) cmu1 c1 clmdam cm m (3 * n + i) =
      3 * ((f i - f (i - 1)) * (h i / h (i - 1)) + (f (i + 1) - f i) / (h i / h (i - 1))) * ((1 / 2) / (h i + h (i - 1))) := by
    intro i hi hin
    simp only [ends]
    rw [set_ne (by omega), set_ne (by omega), set_ne (by omega), set_ne (by omega), hl.hd i hi (by omega)]
  have hspd : spd n f h cmu1 c1 clmdam cm junk =
      rossr3 0 n (3 * n) (2 * n) (3 * n) n (ends n n (2 * n) (3 * n) cmu1 c1 clmdam cm m) := by
    rw [spd, hm, Option.bind_some]
  generalize ends n n (2 * n) (3 * n) cmu1 c1 clmdam cm m = m0 at *
  obtain ⟨m', hm'⟩ := C130_total (layout n) m0 (by omega) (fun _ => by rw [ec0]; exact h1)
    (by
      intro i hi hin
      have g1 := hpos i hin
      have g2 := hpos (i - 1) (by omega)
      rw [ea i hi hin, ec i hi hin, abs_of_nonneg (by positivity), abs_of_nonneg (by positivity)]
      have : h i * ((1 / 2) / (h i + h (i - 1))) + h (i - 1) * ((1 / 2) / (h i + h (i - 1))) = 1 / 2 := by field_simp
      rw [this]; norm_num)
    (fun _ => by rw [ea1]; exact h2)
  have hiff : ∀ gx : Nat → ℚ, Solves n (fun i => m0 (n + i)) (fun i => m0 (2 * n + i)) (fun i => m0 (3 * n + i)) gx ↔
      Slopes n f h gx cmu1 c1 clmdam cm := by
    intro gx
    constructor
    · intro hs
      constructor
      · have := hs 0 (by omega)
        simp only [if_true, if_pos (show 0 + 1 < n by omega), Nat.add_zero, ec0, ed0, zero_add] at this
        exact this
      · have := hs (n - 1) (by omega)
        simp only [if_neg (show ¬ n - 1 = 0 by omega), if_neg (show ¬ n - 1 + 1 < n by omega), ea1, ed1, add_zero,
          show n - 1 - 1 = n - 2 by omega] at this
        exact this
      · intro i hi hin
        have := hs i (by omega)
        simp only [if_neg (show ¬ i = 0 by omega), if_pos hin, ea i hi hin, ec i hi hin, ed i hi hin] at this
        exact this
    · intro hs i hin
      by_cases hi0 : i = 0
      · subst hi0
        simp only [if_true, if_pos (show 0 + 1 < n by omega), Nat.add_zero, ec0, ed0, zero_add]
        exact hs.first
      · by_cases hi1 : i + 1 < n
        · simp only [if_neg hi0, if_pos hi1, ea i (by omega) hi1, ec i (by omega) hi1, ed i (by omega) hi1]
          exact hs.inside i (by omega) hi1
        · obtain rfl : i = n - 1 := by omega
          simp only [if_neg (show ¬ n - 1 = 0 by omega), if_neg (show ¬ n - 1 + 1 < n by omega), ea1, ed1, add_zero,
            show n - 1 - 1 = n - 2 by omega]
          exact hs.last
  refine ⟨m', ?_, ?_, ?_⟩
  · rw [hspd, hm']
  · have := (C130 (layout n) hm').1
    simp only [Nat.zero_add] at this
    exact (hiff _).1 this
  · intro gx hg i hi
    have := C130_unique (layout n) hm' ((hiff gx).2 hg) i hi
    rwa [Nat.zero_add] at this

/-- The polynomial between two points. -/
noncomputable def hermite (x f fx : Nat → ℚ) (j : Nat) : ℚ[X] :=
  C (fx j / (x (j + 1) - x j) ^ 2) * ((C (x (j + 1)) - X) ^ 2 * (X - C (x j))) -
    C (fx (j + 1) / (x (j + 1) - x j) ^ 2) * ((X - C (x j)) ^ 2 * (C (x (j + 1)) - X)) +
    C (f j / (x (j + 1) - x j) ^ 3) * ((C (x (j + 1)) - X) ^ 2 * (C 2 * (X - C (x j)) + C (x (j + 1) - x j))) +
    C (f (j + 1) / (x (j + 1) - x j) ^ 3) * ((X - C (x j)) ^ 2 * (C 2 * (C (x (j + 1)) - X) + C (x (j + 1) - x j)))

theorem piece_eq {x f fx h : Nat → ℚ} {j : Nat} (hx : x j < x (j + 1)) (hh : h j = x (j + 1) - x j) (t : ℚ) :
    piece x f fx h j t = some ((hermite x f fx j).eval t) := by
  have h0 : x (j + 1) - x j ≠ 0 := by intro h; linarith
  rw [piece, if_neg (by rw [hh]; exact h0), hh]
  simp only [hermite, eval_add, eval_sub, eval_mul, eval_pow, eval_C, eval_X]
  congr 1
  field_simp
  ring

theorem hermite_left {x f fx : Nat → ℚ} {j : Nat} (hx : x j < x (j + 1)) : (hermite x f fx j).eval (x j) = f j := by
  have h0 : x (j + 1) - x j ≠ 0 := by intro h; linarith
  simp only [hermite, eval_add, eval_sub, eval_mul, eval_pow, eval_C, eval_X]
  field_simp; ring

theorem hermite_right {x f fx : Nat → ℚ} {j : Nat} (hx : x j < x (j + 1)) :
    (hermite x f fx j).eval (x (j + 1)) = f (j + 1) := by
  have h0 : x (j + 1) - x j ≠ 0 := by intro h; linarith
  simp only [hermite, eval_add, eval_sub, eval_mul, eval_pow, eval_C, eval_X]
  field_simp; ring

theorem hermite_d {x f fx : Nat → ℚ} {j : Nat} (t : ℚ) :
    (derivative (hermite x f fx j)).eval t =
      fx j / (x (j + 1) - x j) ^ 2 * ((x (j + 1) - t) ^ 2 - 2 * (x (j + 1) - t) * (t - x j)) -
      fx (j + 1) / (x (j + 1) - x j) ^ 2 * (2 * (t - x j) * (x (j + 1) - t) - (t - x j) ^ 2) +
      f j / (x (j + 1) - x j) ^ 3 * (2 * (x (j + 1) - t) ^ 2 - 2 * (x (j + 1) - t) * (2 * (t - x j) + (x (j + 1) - x j))) +
      f (j + 1) / (x (j + 1) - x j) ^ 3 * (2 * (t - x j) * (2 * (x (j + 1) - t) + (x (j + 1) - x j)) - 2 * (t - x j) ^ 2) := by
  simp only [hermite, derivative_add, derivative_sub, derivative_mul, derivative_pow, derivative_C, derivative_X, eval_add,
    eval_sub, eval_mul, eval_pow, eval_C, eval_X, eval_zero, eval_one, Nat.cast_ofNat]
  ring

theorem hermite_dd {x f fx : Nat → ℚ} {j : Nat} (t : ℚ) :
    (derivative (derivative (hermite x f fx j))).eval t =
      fx j / (x (j + 1) - x j) ^ 2 * (-4 * (x (j + 1) - t) + 2 * (t - x j)) -
      fx (j + 1) / (x (j + 1) - x j) ^ 2 * (2 * (x (j + 1) - t) - 4 * (t - x j)) +
      f j / (x (j + 1) - x j) ^ 3 * (-8 * (x (j + 1) - t) + 4 * (t - x j) + 2 * (x (j + 1) - x j)) +
      f (j + 1) / (x (j + 1) - x j) ^ 3 * (4 * (x (j + 1) - t) - 8 * (t - x j) + 2 * (x (j + 1) - x j)) := by
  simp only [hermite, derivative_add, derivative_sub, derivative_mul, derivative_pow, derivative_C, derivative_X, eval_add,
    eval_sub, eval_mul, eval_pow, eval_C, eval_X, eval_zero, eval_one, Nat.cast_ofNat]
  simp
  ring

theorem hermite_d_left {x f fx : Nat → ℚ} {j : Nat} (hx : x j < x (j + 1)) :
    (derivative (hermite x f fx j)).eval (x j) = fx j := by
  have h0 : x (j + 1) - x j ≠ 0 := by intro h; linarith
  rw [hermite_d]; field_simp; ring

theorem hermite_d_right {x f fx : Nat → ℚ} {j : Nat} (hx : x j < x (j + 1)) :
    (derivative (hermite x f fx j)).eval (x (j + 1)) = fx (j + 1) := by
  have h0 : x (j + 1) - x j ≠ 0 := by intro h; linarith
  rw [hermite_d]; field_simp; ring

theorem hermite_degree (x f fx : Nat → ℚ) (j : Nat) : (hermite x f fx j).natDegree ≤ 3 := by
  unfold hermite
  compute_degree

theorem hermite_spline {n : Nat} {x f h fx : Nat → ℚ} (hx : ∀ i, i + 1 < n → x i < x (i + 1))
    (hh : ∀ i, i + 1 < n → h i = x (i + 1) - x i) {cmu1 c1 clmdam cm : ℚ} (hs : Slopes n f h fx cmu1 c1 clmdam cm) :
    IsSpline n x f (hermite x f fx) := by
  constructor
  · intro j _; exact hermite_degree x f fx j
  · intro j hj; exact hermite_left (hx j hj)
  · intro j hj; exact hermite_right (hx j hj)
  · intro j hj; rw [hermite_d_right (hx j (by omega)), hermite_d_left (hx (j + 1) hj)]
  · intro j hj
    have g := hs.inside (j + 1) (by omega) hj
    have a1 := hx j (by omega)
    have a2 := hx (j + 1) hj
    rw [hh (j + 1) hj, Nat.add_sub_cancel, hh j (by omega)] at g
    rw [hermite_dd, hermite_dd]
    obtain ⟨u, hu⟩ : ∃ u, x (j + 1) - x j = u := ⟨_, rfl⟩
    obtain ⟨v, hv⟩ : ∃ v, x (j + 1 + 1) - x (j + 1) = v := ⟨_, rfl⟩
    have hu0 : 0 < u := by linarith
    have hv0 : 0 < v := by linarith
    rw [hu, hv] at g ⊢
    have e1 : v + u ≠ 0 := by positivity
    field_simp at g ⊢
    linear_combination 2 * u * v * g

theorem find_spec {x : Nat → ℚ} {t : ℚ} : ∀ (k j : Nat), (∃ i < k, t ≤ x (j + i)) →
    ∃ r, find x t k j = some r ∧ j ≤ r ∧ r < j + k ∧ t ≤ x r ∧ (r = j ∨ x (r - 1) < t) := by
  intro k
  induction k with
  | zero => rintro j ⟨i, hi, _⟩; omega
  | succ k ih =>
    rintro j ⟨i, hi, ht⟩
    rw [find]
    split_ifs with h
    · exact ⟨j, rfl, le_rfl, by omega, h, Or.inl rfl⟩
    · obtain ⟨r, h1, h2, h3, h4, h5⟩ := ih (j + 1) (by
        rcases i with _ | i
        · exact absurd ht h
        · exact ⟨i, by omega, by rwa [show j + 1 + i = j + (i + 1) by omega]⟩)
      refine ⟨r, h1, by omega, by omega, h4, ?_⟩
      rcases h5 with rfl | h5
      · right; rw [Nat.add_sub_cancel]; exact not_le.1 h
      · exact Or.inr h5

theorem mono {n : Nat} {x : Nat → ℚ} (hx : ∀ i, i + 1 < n → x i < x (i + 1)) : ∀ {i j : Nat}, i < j → j < n → x i < x j := by
  intro i j hij
  induction j with
  | zero => omega
  | succ j ih =>
    intro hj
    rcases Nat.lt_or_ge i j with h | h
    · exact (ih h (by omega)).trans (hx j hj)
    · obtain rfl : i = j := by omega
      exact hx i hj

theorem d1int1_spec {n : Nat} {x f fx h : Nat → ℚ} (hx : ∀ i, i + 1 < n → x i < x (i + 1))
    (hh : ∀ i, i + 1 < n → h i = x (i + 1) - x i) : ∀ (ts : List ℚ) (jj : Nat), 0 < jj → jj < n → ts.Pairwise (· ≤ ·) →
      (∀ t ∈ ts, x (jj - 1) ≤ t ∧ t ≤ x (n - 1)) → ∃ out, d1int1 n x f fx h jj ts = some out ∧ List.Forall₂
        (fun t v => ∀ j, j + 1 < n → x j ≤ t → t ≤ x (j + 1) → v = (hermite x f fx j).eval t) ts out := by
  intro ts
  induction ts with
  | nil => intro jj _ _ _ _; exact ⟨[], rfl, List.Forall₂.nil⟩
  | cons t ts ih =>
    intro jj h0 h1 hp ht
    obtain ⟨t1, t2⟩ := ht t (by simp)
    obtain ⟨r, g1, g2, g3, g4, g5⟩ := find_spec (x := x) (t := t) (n - jj) jj
      ⟨n - 1 - jj, by omega, by rwa [show jj + (n - 1 - jj) = n - 1 by omega]⟩
    have g6 : x (r - 1) ≤ t := by
      rcases g5 with rfl | g5
      · exact t1
      · exact g5.le
    have hr : r - 1 + 1 = r := by omega
    rw [List.pairwise_cons] at hp
    obtain ⟨out, h2, h3⟩ := ih r (by omega) (by omega) hp.2
      (fun s hs => ⟨g6.trans (hp.1 s hs), (ht s (by simp [hs])).2⟩)
    have hxr := hx (r - 1) (by omega)
    refine ⟨(hermite x f fx (r - 1)).eval t :: out, ?_, List.Forall₂.cons ?_ h3⟩
    · simp only [d1int1, g1, Option.bind_eq_bind, Option.bind_some, piece_eq hxr (hh (r - 1) (by omega)), h2]
    · intro j hj u1 u2
      rcases Nat.lt_trichotomy j (r - 1) with hlt | heq | hgt
      · have h7 : j + 1 = r - 1 := by
          by_contra hne
          have := mono hx (show j + 1 < r - 1 by omega) (by omega)
          linarith
        have h8 : t = x (r - 1) := le_antisymm (by rw [← h7]; exact u2) g6
        rw [h8, hermite_left hxr, ← h7, hermite_right (hx j hj)]
      · rw [heq]
      · have h7 : j = r := by
          by_contra hne
          have := mono hx (show r < j by omega) (by omega)
          linarith
        subst h7
        have h8 : t = x j := le_antisymm g4 u1
        have := hermite_right (f := f) (fx := fx) hxr
        rw [hr] at this
        rw [h8, this, hermite_left (hx j hj)]

/-- C131: `INT1D1` evaluates a cubic spline through the points: a piecewise cubic with continuous first and second
derivatives that satisfies the conditions at the ends. -/
theorem C131 {n : Nat} (hn : 2 ≤ n) {x f h : Nat → ℚ} (hx : ∀ i, i + 1 < n → x i < x (i + 1))
    (hh : ∀ i, i + 1 < n → h i = x (i + 1) - x i) {cmu1 clmdam : ℚ} (c1 cm : ℚ) (h1 : |cmu1| < 1) (h2 : |clmdam| < 1)
    (junk : Mem) :
    ∃ S : Nat → ℚ[X], IsSpline n x f S ∧
      (derivative (S 0)).eval (x 0) + cmu1 * (derivative (S 0)).eval (x 1) = c1 ∧
      clmdam * (derivative (S (n - 2))).eval (x (n - 2)) + (derivative (S (n - 2))).eval (x (n - 1)) = cm ∧
      ∀ ts : List ℚ, ts.Pairwise (· ≤ ·) → (∀ t ∈ ts, x 0 ≤ t ∧ t ≤ x (n - 1)) →
        ∃ out, int1d1 n x f h cmu1 c1 clmdam cm junk ts = some out ∧ List.Forall₂
          (fun t v => ∀ j, j + 1 < n → x j ≤ t → t ≤ x (j + 1) → v = (S j).eval t) ts out := by
  obtain ⟨fx, hfx, hs, -⟩ := spd_slopes hn (f := f) (h := h)
    (fun i hi => by rw [hh i hi]; have := hx i hi; linarith) (c1 := c1) (cm := cm) h1 h2 junk
  refine ⟨hermite x f fx, hermite_spline hx hh hs, ?_, ?_, ?_⟩
  · rw [hermite_d_left (hx 0 (by omega)), hermite_d_right (hx 0 (by omega))]; exact hs.first
  · have e := hx (n - 2) (by omega)
    have := hermite_d_right (f := f) (fx := fx) e
    rw [show n - 2 + 1 = n - 1 by omega] at this
    rw [hermite_d_left e, this]; exact hs.last
  · intro ts hp ht
    obtain ⟨out, ho, hf⟩ := d1int1_spec (f := f) (fx := fx) hx hh ts 1 (by omega) (by omega) hp ht
    exact ⟨out, by rw [int1d1, hfx, Option.bind_some, ho], hf⟩


/-- A polynomial of degree 3. -/
def cubic (a b c d t : ℚ) : ℚ := a + b * t + c * t ^ 2 + d * t ^ 3

/-- Its derivative. -/
def cubic' (b c d t : ℚ) : ℚ := b + 2 * c * t + 3 * d * t ^ 2

/-- C132: `FD1` and `FDM` give the derivative of a cubic at the first and the last point. -/
theorem C132_ends {n : Nat} (hn : 4 ≤ n) {x f h : Nat → ℚ} (hx : ∀ i, i + 1 < n → x i < x (i + 1))
    (hh : ∀ i, i + 1 < n → h i = x (i + 1) - x i) {a b c d : ℚ} (hf : ∀ i < n, f i = cubic a b c d (x i)) :
    fd1 f h = some (cubic' b c d (x 0)) ∧ fdm n f h = some (cubic' b c d (x (n - 1))) := by
  constructor
  · have e0 := hh 0 (by omega)
    have e1 := hh 1 (by omega)
    have e2 := hh 2 (by omega)
    have p0 : 0 < h 0 := by rw [e0]; have := hx 0 (by omega); linarith
    have p1 : 0 < h 1 := by rw [e1]; have := hx 1 (by omega); linarith
    have p2 : 0 < h 2 := by rw [e2]; have := hx 2 (by omega); linarith
    have x1 : x 1 = x 0 + h 0 := by rw [e0]; ring
    have x2 : x 2 = x 0 + h 0 + h 1 := by rw [e1, x1]; ring
    have x3 : x 3 = x 0 + h 0 + h 1 + h 2 := by rw [e2, x2]; ring
    simp only [fd1]
    rw [if_neg (by rintro (q | q | q | q | q | q) <;> linarith), hf 0 (by omega), hf 1 (by omega), hf 2 (by omega),
      hf 3 (by omega), x1, x2, x3]
    simp only [cubic, cubic']
    congr 1
    generalize h 0 = u at *
    generalize h 1 = v at *
    generalize h 2 = w at *
    field_simp
    ring
  · have q3 : n - 4 + 1 = n - 3 := by omega
    have q2 : n - 3 + 1 = n - 2 := by omega
    have q1 : n - 2 + 1 = n - 1 := by omega
    have e0 := hh (n - 4) (by omega)
    have e1 := hh (n - 3) (by omega)
    have e2 := hh (n - 2) (by omega)
    have i0 := hx (n - 4) (by omega)
    have i1 := hx (n - 3) (by omega)
    have i2 := hx (n - 2) (by omega)
    rw [q3] at e0 i0
    rw [q2] at e1 i1
    rw [q1] at e2 i2
    have p0 : 0 < h (n - 4) := by rw [e0]; linarith
    have p1 : 0 < h (n - 3) := by rw [e1]; linarith
    have p2 : 0 < h (n - 2) := by rw [e2]; linarith
    have x1 : x (n - 2) = x (n - 1) - h (n - 2) := by rw [e2]; ring
    have x2 : x (n - 3) = x (n - 1) - h (n - 2) - h (n - 3) := by rw [e1, x1]; ring
    have x3 : x (n - 4) = x (n - 1) - h (n - 2) - h (n - 3) - h (n - 4) := by rw [e0, x2]; ring
    simp only [fdm]
    rw [if_neg (by omega), if_neg (by rintro (q | q | q | q | q | q) <;> linarith), hf (n - 4) (by omega),
      hf (n - 3) (by omega), hf (n - 2) (by omega), hf (n - 1) (by omega), x1, x2, x3]
    simp only [cubic, cubic']
    congr 1
    generalize h (n - 4) = u at *
    generalize h (n - 3) = v at *
    generalize h (n - 2) = w at *
    generalize x (n - 1) = y at *
    field_simp
    ring

/-- C132: `D1` and `DN` give the derivative of a parabola whose points are equally spaced. -/
theorem C132_equal_partial {n : Nat} (hn : 4 ≤ n) {f : Nat → ℚ} {x0 h : ℚ} (hh : h ≠ 0) {a b c : ℚ}
    (hf : ∀ i < n, f i = cubic a b c 0 (x0 + i * h)) :
    d1 f h = cubic' b c 0 x0 ∧ dn n f h = cubic' b c 0 (x0 + (n - 1 : ℕ) * h) := by
  constructor
  · rw [d1, hf 0 (by omega), hf 1 (by omega), hf 2 (by omega), hf 3 (by omega)]
    simp only [cubic, cubic']
    push_cast
    field_simp
    ring
  · rw [dn, hf (n - 1) (by omega), hf (n - 2) (by omega), hf (n - 3) (by omega), hf (n - 4) (by omega)]
    obtain ⟨k, rfl⟩ : ∃ k, n = k + 4 := ⟨n - 4, by omega⟩
    simp only [cubic, cubic', show k + 4 - 1 = k + 3 by omega, show k + 4 - 2 = k + 2 by omega,
      show k + 4 - 3 = k + 1 by omega, show k + 4 - 4 = k by omega]
    push_cast
    field_simp
    ring

/-- `D1` and `DN` are said to be accurate to the fourth order, but the derivative of `x³` at 0 is not 0. -/
theorem C132_order_witness : d1 (fun i => cubic 0 0 0 1 (0 + i * 1)) 1 = -47 / 10 ∧ cubic' 0 0 1 0 = 0 ∧
    dn 4 (fun i => cubic 0 0 0 1 (0 + i * 1)) 1 = 223 / 10 ∧ cubic' 0 0 1 3 = 27 := by decide +kernel

/-- C132: with the slopes of `FD1` and `FDM` a cubic is reproduced at all places. -/
theorem C132 {n : Nat} (hn : 4 ≤ n) {x f h : Nat → ℚ} (hx : ∀ i, i + 1 < n → x i < x (i + 1))
    (hh : ∀ i, i + 1 < n → h i = x (i + 1) - x i) {a b c d : ℚ} (hf : ∀ i < n, f i = cubic a b c d (x i)) (junk : Mem)
    {ts : List ℚ} (hp : ts.Pairwise (· ≤ ·)) (ht : ∀ t ∈ ts, x 0 ≤ t ∧ t ≤ x (n - 1)) :
    ∃ c1 cm, fd1 f h = some c1 ∧ fdm n f h = some cm ∧
      int1d1 n x f h 0 c1 0 cm junk ts = some (ts.map (cubic a b c d)) := by
  obtain ⟨h1, h2⟩ := C132_ends hn hx hh hf
  refine ⟨_, _, h1, h2, ?_⟩
  obtain ⟨fx, hfx, -, hu⟩ := spd_slopes (by omega : 2 ≤ n) (f := f) (h := h) (cmu1 := 0) (clmdam := 0)
    (fun i hi => by rw [hh i hi]; have := hx i hi; linarith) (c1 := cubic' b c d (x 0)) (cm := cubic' b c d (x (n - 1)))
    (by simp) (by simp) junk
  have hg := hu (fun i => cubic' b c d (x i)) (by
    constructor
    · simp
    · simp
    · intro i hi hin
      obtain ⟨k, rfl⟩ : ∃ k, i = k + 1 := ⟨i - 1, by omega⟩
      rw [Nat.add_sub_cancel, hf _ (by omega), hf _ (by omega), hf _ (by omega)]
      have e0 := hh k (by omega)
      have e1 := hh (k + 1) (by omega)
      have p0 : 0 < h k := by rw [e0]; have := hx k (by omega); linarith
      have p1 : 0 < h (k + 1) := by rw [e1]; have := hx (k + 1) (by omega); linarith
      have x0 : x k = x (k + 1) - h k := by rw [e0]; ring
      have x1 : x (k + 1 + 1) = x (k + 1) + h (k + 1) := by rw [e1]; ring
      rw [x0, x1]
      generalize h k = u at *
      generalize h (k + 1) = v at *
      generalize x (k + 1) = y at *
      simp only [cubic, cubic']
      field_simp
      ring)
  obtain ⟨out, ho, hfa⟩ := d1int1_spec (f := f) (fx := fx) hx hh ts 1 (by omega) (by omega) hp ht
  rw [int1d1, hfx, Option.bind_some, ho, Option.some.injEq]
  have key : ∀ t v, x 0 ≤ t → t ≤ x (n - 1) →
      (∀ j, j + 1 < n → x j ≤ t → t ≤ x (j + 1) → v = (hermite x f fx j).eval t) → v = cubic a b c d t := by
    intro t v t0 t1 hv
    obtain ⟨r, -, g2, g3, g4, g5⟩ := find_spec (x := x) (t := t) (n - 1) 1
      ⟨n - 2, by omega, by rwa [show 1 + (n - 2) = n - 1 by omega]⟩
    obtain ⟨j, rfl⟩ : ∃ j, r = j + 1 := ⟨r - 1, by omega⟩
    have g6 : x j ≤ t := by
      rcases g5 with g5 | g5
      · obtain rfl : j = 0 := by omega
        exact t0
      · exact g5.le
    rw [hv j (by omega) g6 g4]
    have h0 : x (j + 1) - x j ≠ 0 := by have := hx j (by omega); intro h; linarith
    simp only [hermite, eval_add, eval_sub, eval_mul, eval_pow, eval_C, eval_X]
    rw [← hg j (by omega), ← hg (j + 1) (by omega), hf j (by omega), hf (j + 1) (by omega)]
    simp only [cubic, cubic']
    generalize x j = y at *
    generalize x (j + 1) = z at *
    field_simp
    ring
  clear ho
  induction hfa with
  | nil => rfl
  | cons h1 _ ih =>
    rw [List.map_cons, ih (List.pairwise_cons.1 hp).2 fun t hm => ht t (by simp [hm])]
    rw [key _ _ (ht _ (by simp)).1 (ht _ (by simp)).2 h1]

/-- Five points of `t³ - t`, not equally spaced. -/
def knots : Nat → ℚ := fun i => [0, 1, 3, 4, 6].getD i 0

example : fd1 (fun i => knots i ^ 3 - knots i) (fun i => knots (i + 1) - knots i) = some (-1) ∧
    fdm 5 (fun i => knots i ^ 3 - knots i) (fun i => knots (i + 1) - knots i) = some 107 ∧
    int1d1 5 knots (fun i => knots i ^ 3 - knots i) (fun i => knots (i + 1) - knots i) 0 (-1) 0 107 (fun _ => 5)
      [0, 1 / 2, 2, 5, 6] = some [0, -3 / 8, 6, 120, 210] := by decide +kernel

/-- A place beyond the last point is read outside the arrays. -/
theorem C131_outside_witness : int1d1 2 (fun i => i) (fun i => i) (fun _ => 1) 0 1 0 1 (fun _ => 0) [1 / 2, 3 / 2] = none := by
  decide +kernel

/-- The weights applied to values and derivatives at both ends. -/
def apply (w : ℚ × ℚ × ℚ × ℚ) (p p' : ℚ) (q q' : ℚ) : ℚ := w.1 * p' - w.2.1 * q' + w.2.2.1 * p + w.2.2.2 * q

theorem apply_cubic {h y t : ℚ} (hh : h ≠ 0) (a b c d : ℚ) :
    apply (weights h (t - y)) (cubic a b c d y) (cubic' b c d y) (cubic a b c d (y + h)) (cubic' b c d (y + h)) =
      cubic a b c d t := by
  simp only [apply, weights, cubic, cubic']
  field_simp
  ring

theorem square_apply (f fx fy fxy : Nat → Nat → ℚ) (k l : Nat) (wx wy : ℚ × ℚ × ℚ × ℚ) :
    square f fx fy fxy k l wx wy = apply wy
      (apply wx (f k l) (fx k l) (f (k + 1) l) (fx (k + 1) l))
      (apply wx (fy k l) (fxy k l) (fy (k + 1) l) (fxy (k + 1) l))
      (apply wx (f k (l + 1)) (fx k (l + 1)) (f (k + 1) (l + 1)) (fx (k + 1) (l + 1)))
      (apply wx (fy k (l + 1)) (fxy k (l + 1)) (fy (k + 1) (l + 1)) (fxy (k + 1) (l + 1))) := by
  simp only [square, apply]

/-- A polynomial of degree 3 in each variable: `p i j` is the coefficient of `s^i t^j`. -/
def bicubic (p : Nat → Nat → ℚ) (s t : ℚ) : ℚ :=
  cubic (cubic (p 0 0) (p 1 0) (p 2 0) (p 3 0) s) (cubic (p 0 1) (p 1 1) (p 2 1) (p 3 1) s)
    (cubic (p 0 2) (p 1 2) (p 2 2) (p 3 2) s) (cubic (p 0 3) (p 1 3) (p 2 3) (p 3 3) s) t

/-- Its derivatives. -/
def bicubicX (p : Nat → Nat → ℚ) (s t : ℚ) : ℚ :=
  cubic (cubic' (p 1 0) (p 2 0) (p 3 0) s) (cubic' (p 1 1) (p 2 1) (p 3 1) s) (cubic' (p 1 2) (p 2 2) (p 3 2) s)
    (cubic' (p 1 3) (p 2 3) (p 3 3) s) t

def bicubicY (p : Nat → Nat → ℚ) (s t : ℚ) : ℚ :=
  cubic' (cubic (p 0 1) (p 1 1) (p 2 1) (p 3 1) s) (cubic (p 0 2) (p 1 2) (p 2 2) (p 3 2) s)
    (cubic (p 0 3) (p 1 3) (p 2 3) (p 3 3) s) t

def bicubicXY (p : Nat → Nat → ℚ) (s t : ℚ) : ℚ :=
  cubic' (cubic' (p 1 1) (p 2 1) (p 3 1) s) (cubic' (p 1 2) (p 2 2) (p 3 2) s) (cubic' (p 1 3) (p 2 3) (p 3 3) s) t

/-- `bicubic` seen as a cubic in the first variable. -/
theorem bicubic_swap (p : Nat → Nat → ℚ) (s t : ℚ) : bicubic p s t =
    cubic (cubic (p 0 0) (p 0 1) (p 0 2) (p 0 3) t) (cubic (p 1 0) (p 1 1) (p 1 2) (p 1 3) t)
      (cubic (p 2 0) (p 2 1) (p 2 2) (p 2 3) t) (cubic (p 3 0) (p 3 1) (p 3 2) (p 3 3) t) s ∧
    bicubicX p s t = cubic' (cubic (p 1 0) (p 1 1) (p 1 2) (p 1 3) t) (cubic (p 2 0) (p 2 1) (p 2 2) (p 2 3) t)
      (cubic (p 3 0) (p 3 1) (p 3 2) (p 3 3) t) s ∧
    bicubicY p s t = cubic (cubic' (p 0 1) (p 0 2) (p 0 3) t) (cubic' (p 1 1) (p 1 2) (p 1 3) t)
      (cubic' (p 2 1) (p 2 2) (p 2 3) t) (cubic' (p 3 1) (p 3 2) (p 3 3) t) s ∧
    bicubicXY p s t = cubic' (cubic' (p 1 1) (p 1 2) (p 1 3) t) (cubic' (p 2 1) (p 2 2) (p 2 3) t)
      (cubic' (p 3 1) (p 3 2) (p 3 3) t) s := by
  refine ⟨?_, ?_, ?_, ?_⟩ <;> simp only [bicubic, bicubicX, bicubicY, bicubicXY, cubic, cubic'] <;> ring

theorem square_bicubic {x y hx hy : Nat → ℚ} {f fx fy fxy : Nat → Nat → ℚ} {k l : Nat} (h1 : hx k ≠ 0) (h2 : hy l ≠ 0)
    (ex : x (k + 1) = x k + hx k) (ey : y (l + 1) = y l + hy l) {p : Nat → Nat → ℚ}
    (hf : ∀ i j, (i = k ∨ i = k + 1) → (j = l ∨ j = l + 1) → f i j = bicubic p (x i) (y j) ∧
      fx i j = bicubicX p (x i) (y j) ∧ fy i j = bicubicY p (x i) (y j) ∧ fxy i j = bicubicXY p (x i) (y j)) (s t : ℚ) :
    square f fx fy fxy k l (weights (hx k) (s - x k)) (weights (hy l) (t - y l)) = bicubic p s t := by
  obtain ⟨a1, a2, a3, a4⟩ := hf k l (Or.inl rfl) (Or.inl rfl)
  obtain ⟨b1, b2, b3, b4⟩ := hf (k + 1) l (Or.inr rfl) (Or.inl rfl)
  obtain ⟨c1, c2, c3, c4⟩ := hf k (l + 1) (Or.inl rfl) (Or.inr rfl)
  obtain ⟨d1, d2, d3, d4⟩ := hf (k + 1) (l + 1) (Or.inr rfl) (Or.inr rfl)
  rw [square_apply, a1, a2, a3, a4, b1, b2, b3, b4, c1, c2, c3, c4, d1, d2, d3, d4, ex, ey]
  have e1 := fun t => (bicubic_swap p (x k) t).1
  have e2 := fun t => (bicubic_swap p (x k) t).2.1
  have e3 := fun t => (bicubic_swap p (x k) t).2.2.1
  have e4 := fun t => (bicubic_swap p (x k) t).2.2.2
  have g1 := fun t => (bicubic_swap p (x k + hx k) t).1
  have g2 := fun t => (bicubic_swap p (x k + hx k) t).2.1
  have g3 := fun t => (bicubic_swap p (x k + hx k) t).2.2.1
  have g4 := fun t => (bicubic_swap p (x k + hx k) t).2.2.2
  simp only [e1, e2, e3, e4, g1, g2, g3, g4]
  simp only [apply_cubic h1]
  have k1 := fun t => (bicubic_swap p s t).1
  have k3 := fun t => (bicubic_swap p s t).2.2.1
  simp only [← k1, ← k3]
  simp only [bicubic, bicubicY]
  rw [apply_cubic h2]

theorem places_spec {n : Nat} {x : Nat → ℚ} : ∀ (ts : List ℚ) (jj : Nat), 0 < jj → jj < n → ts.Pairwise (· ≤ ·) →
    (∀ t ∈ ts, t ≤ x (n - 1)) → ∃ ps, places n x jj ts = some ps ∧
      List.Forall₂ (fun t q => q.1 + 1 < n ∧ q.2 = t - x q.1) ts ps := by
  intro ts
  induction ts with
  | nil => intro jj _ _ _ _; exact ⟨[], rfl, List.Forall₂.nil⟩
  | cons t ts ih =>
    intro jj h0 h1 hp ht
    have t2 := ht t (by simp)
    obtain ⟨r, g1, g2, g3, g4, g5⟩ := find_spec (x := x) (t := t) (n - jj) jj
      ⟨n - 1 - jj, by omega, by rwa [show jj + (n - 1 - jj) = n - 1 by omega]⟩
    rw [List.pairwise_cons] at hp
    obtain ⟨ps, h2, h3⟩ := ih r (by omega) (by omega) hp.2 (fun s hs => ht s (by simp [hs]))
    refine ⟨(r - 1, t - x (r - 1)) :: ps, ?_, List.Forall₂.cons ⟨?_, rfl⟩ h3⟩
    · simp only [places, g1, Option.bind_eq_bind, Option.bind_some, h2]
    · dsimp only; omega

theorem locate_lt {n : Nat} (hn : 2 ≤ n) (x : Nat → ℚ) (t : ℚ) : locate n x t + 1 < n := by
  unfold locate
  have : ∀ k j r, find x t k j = some r → r < j + k := by
    intro k
    induction k with
    | zero => intro j r h; cases h
    | succ k ih =>
      intro j r h
      rw [find] at h
      split_ifs at h
      · rw [Option.some.injEq] at h; omega
      · have := ih _ _ h; omega
  cases hfd : find x t (n - 1) 1 with
  | none => simp only [Option.getD_none]; omega
  | some r => have := this _ _ _ hfd; simp only [Option.getD_some]; omega

theorem forall₂_map {α β γ : Type} {R : α → β → Prop} {f : β → γ} {g : α → γ} (h : ∀ a b, R a b → f b = g a) :
    ∀ {l : List α} {m : List β}, List.Forall₂ R l m → m.map f = l.map g := by
  intro l m hlm
  induction hlm with
  | nil => rfl
  | cons h1 _ ih => rw [List.map_cons, List.map_cons, ih, h _ _ h1]

/-- C133: given the values and the derivatives of a polynomial of degree 3 in each variable, `D1INT2` and `D1INTR` give
the polynomial at all places; `D1INTR` also beyond the ends. -/
theorem C133 {nx ny : Nat} (hnx : 2 ≤ nx) (hny : 2 ≤ ny) {x y hx hy : Nat → ℚ} {f fx fy fxy : Nat → Nat → ℚ}
    (ex : ∀ i, i + 1 < nx → x i < x (i + 1) ∧ hx i = x (i + 1) - x i)
    (ey : ∀ j, j + 1 < ny → y j < y (j + 1) ∧ hy j = y (j + 1) - y j) {p : Nat → Nat → ℚ}
    (hf : ∀ i j, i < nx → j < ny → f i j = bicubic p (x i) (y j) ∧
      fx i j = bicubicX p (x i) (y j) ∧ fy i j = bicubicY p (x i) (y j) ∧ fxy i j = bicubicXY p (x i) (y j)) :
    (∀ s t, d1intr nx ny x y hx hy f fx fy fxy s t = some (bicubic p s t)) ∧
      ∀ xs ys : List ℚ, xs.Pairwise (· ≤ ·) → ys.Pairwise (· ≤ ·) → (∀ s ∈ xs, s ≤ x (nx - 1)) →
        (∀ t ∈ ys, t ≤ y (ny - 1)) →
        d1int2 nx ny x y hx hy f fx fy fxy xs ys = some (xs.map fun s => ys.map fun t => bicubic p s t) := by
  have zx : ∀ i, i + 1 < nx → hx i ≠ 0 := fun i hi h => by
    obtain ⟨h1, h2⟩ := ex i hi; linarith
  have zy : ∀ i, i + 1 < ny → hy i ≠ 0 := fun i hi h => by
    obtain ⟨h1, h2⟩ := ey i hi; linarith
  have hsq : ∀ k l s t, k + 1 < nx → l + 1 < ny →
      square f fx fy fxy k l (weights (hx k) (s - x k)) (weights (hy l) (t - y l)) = bicubic p s t := by
    intro k l s t hk hl
    refine square_bicubic (zx k hk) (zy l hl) (by rw [(ex k hk).2]; ring) (by rw [(ey l hl).2]; ring) ?_ s t
    intro i j hi hj
    exact hf i j (by omega) (by omega)
  constructor
  · intro s t
    have h1 := locate_lt hnx x s
    have h2 := locate_lt hny y t
    rw [d1intr]
    rw [if_neg (by rintro (h | h | h | h); omega; omega; exact zx _ h1 h; exact zy _ h2 h), hsq _ _ _ _ h1 h2]
  · intro xs ys hxs hys bx bY
    obtain ⟨ps, hps, fps⟩ := places_spec xs 1 (by omega) (by omega) hxs bx
    obtain ⟨qs, hqs, fqs⟩ := places_spec ys 1 (by omega) (by omega) hys bY
    have mem : ∀ {n : Nat} {z : Nat → ℚ} {ts : List ℚ} {ps : List (Nat × ℚ)},
        List.Forall₂ (fun t q => q.1 + 1 < n ∧ q.2 = t - z q.1) ts ps → ∀ q ∈ ps, q.1 + 1 < n := by
      intro n z ts ps h
      induction h with
      | nil => intro q hq; cases hq
      | cons h1 _ ih =>
        intro q hq
        rcases List.mem_cons.1 hq with rfl | hq
        · exact h1.1
        · exact ih q hq
    simp only [d1int2, hps, hqs, Option.bind_eq_bind, Option.bind_some]
    rw [if_neg (by
      rintro (⟨q, hq, h⟩ | ⟨q, hq, h⟩)
      · exact zy _ (mem fqs q hq) h
      · exact zx _ (mem fps q hq) h)]
    rw [Option.some.injEq]
    refine forall₂_map (fun s q hq => forall₂_map (fun t r hr => ?_) fqs) fps
    rw [hq.2, hr.2, hsq _ _ _ _ hq.1 hr.1]

/-- C133: at the points of the grid the value is that of the field, whatever the derivatives are. -/
theorem C133_points {nx ny : Nat} {x y hx hy : Nat → ℚ} (f fx fy fxy : Nat → Nat → ℚ)
    (ex : ∀ i, i + 1 < nx → x i < x (i + 1) ∧ hx i = x (i + 1) - x i)
    (ey : ∀ j, j + 1 < ny → y j < y (j + 1) ∧ hy j = y (j + 1) - y j) {i j : Nat} (hi : 0 < i) (hi' : i < nx) (hj : 0 < j)
    (hj' : j < ny) : d1intr nx ny x y hx hy f fx fy fxy (x i) (y j) = some (f i j) := by
  have hloc : ∀ {n : Nat} {x hx : Nat → ℚ}, (∀ i, i + 1 < n → x i < x (i + 1) ∧ hx i = x (i + 1) - x i) →
      ∀ {i}, 0 < i → i < n → locate n x (x i) = i - 1 := by
    intro n x hx e i h0 h1
    obtain ⟨r, g1, g2, g3, g4, g5⟩ := find_spec (x := x) (t := x i) (n - 1) 1
      ⟨i - 1, by omega, by rw [show 1 + (i - 1) = i by omega]⟩
    have hm := @mono n x fun i hi => (e i hi).1
    have : r = i := by
      rcases Nat.lt_trichotomy r i with h | h | h
      · have := hm h h1; linarith
      · exact h
      · rcases g5 with rfl | g5
        · omega
        · exfalso
          rcases Nat.lt_or_ge i (r - 1) with h2 | h2
          · have := hm h2 (by omega); linarith
          · rw [show r - 1 = i by omega] at g5; exact lt_irrefl _ g5
    rw [locate, g1, this, Option.getD_some]
  rw [d1intr, hloc ex hi hi', hloc ey hj hj']
  have a := ex (i - 1) (by omega)
  have b := ey (j - 1) (by omega)
  rw [show i - 1 + 1 = i by omega] at a
  rw [show j - 1 + 1 = j by omega] at b
  have zx : hx (i - 1) ≠ 0 := by intro h; linarith
  have zy : hy (j - 1) ≠ 0 := by intro h; linarith
  rw [if_neg (by rintro (h | h | h | h); omega; omega; exact zx h; exact zy h), ← a.2, ← b.2]
  have w : ∀ h : ℚ, h ≠ 0 → weights h h = (0, 0, 0, 1) := by
    intro h h0
    simp only [weights, div_self h0]
    norm_num
  rw [w _ zx, w _ zy]
  simp only [square, show i - 1 + 1 = i by omega, show j - 1 + 1 = j by omega]
  congr 1
  ring

example : d1intr 3 3 (fun i => i) (fun j => 2 * j) (fun _ => 1) (fun _ => 2)
    (fun i j => (i : ℚ) ^ 3 * (2 * (j : ℚ))) (fun i j => 3 * (i : ℚ) ^ 2 * (2 * (j : ℚ))) (fun i _ => (i : ℚ) ^ 3)
    (fun i _ => 3 * (i : ℚ) ^ 2) (3 / 2) 3 = some (81 / 8) := by decide +kernel

/-- `D1INT2` has no result where `D1INTR` continues the last square. -/
theorem C133_outside_witness : d1int2 2 2 (fun i => i) (fun i => i) (fun _ => 1) (fun _ => 1) (fun i _ => i) (fun _ _ => 1)
    (fun _ _ => 0) (fun _ _ => 0) [2] [1] = none ∧
    d1intr 2 2 (fun i => i) (fun i => i) (fun _ => 1) (fun _ => 1) (fun i _ => i) (fun _ _ => 1)
    (fun _ _ => 0) (fun _ _ => 0) 2 1 = some 2 := by decide +kernel

end Verif.Spline
