import Verif.OrdLeg
import Mathlib.Tactic
import Mathlib.RingTheory.PowerSeries.Derivative

namespace Verif.OrdLeg

/-! # C167: Legendre polynomials -/

/-- The Legendre polynomials by the recurrence of Bonnet. -/
noncomputable def legendre : Nat → ℝ → ℝ
  | 0, _ => 1
  | 1, x => x
  | n + 2, x => ((2 * (n : ℝ) + 3) * x * legendre (n + 1) x - ((n : ℝ) + 1) * legendre n x) / ((n : ℝ) + 2)

/-- The coefficients of `(1 - z)^(-1/2)`. -/
noncomputable def g : Nat → ℝ
  | 0 => 1
  | n + 1 => g n * (2 * (n : ℝ) + 1) / (2 * ((n : ℝ) + 1))

theorem g_pos (n : Nat) : 0 < g n := by
  induction n with
  | zero => rw [g]; exact one_pos
  | succ n ih => rw [g]; positivity

theorem g_succ (n : Nat) : ((n : ℝ) + 1) * g (n + 1) = ((n : ℝ) + 1 / 2) * g n := by
  have : (n : ℝ) + 1 ≠ 0 := by positivity
  rw [g]; field_simp

open PowerSeries in
/-- `(1 - a z)^(-1/2)`. -/
noncomputable def G (a : ℂ) : PowerSeries ℂ := PowerSeries.mk fun n => (g n : ℂ) * a ^ n

open PowerSeries in
theorem G_deriv (a : ℂ) : (1 - C a * X) * d⁄dX ℂ (G a) = C (a / 2) * G a := by
  have gs : ∀ n : Nat, ((n : ℂ) + 1) * (g (n + 1) : ℂ) = ((n : ℂ) + 1 / 2) * (g n : ℂ) := by
    intro n
    have := congrArg (fun x : ℝ => (x : ℂ)) (g_succ n)
    push_cast at this
    exact this
  ext n
  rw [sub_mul, one_mul, map_sub, mul_assoc, coeff_C_mul, coeff_C_mul]
  cases n with
  | zero =>
    have h := gs 0
    simp only [coeff_zero_X_mul, mul_zero, sub_zero, coeff_derivative, G, coeff_mk]
    push_cast at h ⊢
    linear_combination a * h
  | succ n =>
    have h := gs (n + 1)
    simp only [coeff_succ_X_mul, coeff_derivative, G, coeff_mk]
    push_cast at h ⊢
    linear_combination a ^ (n + 2) * h

open PowerSeries in
theorem GG_deriv (a b : ℂ) : (1 - C a * X) * (1 - C b * X) * d⁄dX ℂ (G a * G b) = (C ((a + b) / 2) - C (a * b) * X) * (G a * G b) := by
  have e : d⁄dX ℂ (G a * G b) = G a * d⁄dX ℂ (G b) + G b * d⁄dX ℂ (G a) := by
    rw [Derivation.leibniz, smul_eq_mul, smul_eq_mul]
  have ha := G_deriv a
  have hb := G_deriv b
  have c1 : (C ((a + b) / 2) : PowerSeries ℂ) = C (a / 2) + C (b / 2) := by rw [← map_add]; congr 1; ring
  have c2 : (C (a * b) : PowerSeries ℂ) = C (a / 2) * C b + C (b / 2) * C a := by rw [← map_mul, ← map_mul, ← map_add]; congr 1; ring
  rw [e, c1, c2]
  linear_combination (1 - C b * X) * G b * ha + (1 - C a * X) * G a * hb

open PowerSeries in
/-- The product of the two series has the Legendre polynomials as coefficients. -/
theorem legendre_coeff (a b : ℂ) (x : ℝ) (hab : a * b = 1) (hx : a + b = 2 * x) (n : Nat) : coeff n (G a * G b) = (legendre n x : ℂ) := by
  have H := GG_deriv a b
  rw [hab, hx, show (2 * (x : ℂ)) / 2 = x by ring, map_one, one_mul] at H
  have q : (1 - C a * X) * (1 - C b * X) = (1 - C (2 * (x : ℂ)) * X + X * X : PowerSeries ℂ) := by
    have h1 : (C (2 * (x : ℂ)) : PowerSeries ℂ) = C a + C b := by rw [← hx, map_add]
    have h2 : (C a * C b : PowerSeries ℂ) = 1 := by rw [← map_mul, hab, map_one]
    rw [h1]
    linear_combination X * X * h2
  rw [q] at H
  have h0 : coeff 0 (G a * G b) = 1 := by simp [G, g]
  generalize G a * G b = h at H h0
  have step0 : coeff 1 h = (x : ℂ) := by
    have := congrArg (coeff 0) H
    simp only [add_mul, sub_mul, one_mul, map_add, map_sub, mul_assoc, coeff_C_mul, coeff_zero_X_mul, mul_zero, sub_zero, add_zero,
      coeff_derivative, h0, Nat.cast_zero, zero_add, mul_one] at this
    exact this
  have step : ∀ n : Nat, ((n : ℂ) + 2) * coeff (n + 2) h = (2 * n + 3) * x * coeff (n + 1) h - (n + 1) * coeff n h := by
    intro n
    have e := congrArg (coeff (n + 1)) H
    have xx : coeff n (X * d⁄dX ℂ h) = n * coeff n h := by
      cases n with
      | zero => simp
      | succ n => rw [coeff_succ_X_mul, coeff_derivative]; push_cast; ring
    simp only [add_mul, sub_mul, one_mul, map_add, map_sub, mul_assoc, coeff_C_mul, coeff_succ_X_mul, coeff_derivative, xx] at e
    push_cast at e
    linear_combination e
  have both : coeff n h = (legendre n x : ℂ) ∧ coeff (n + 1) h = (legendre (n + 1) x : ℂ) := by
    induction n with
    | zero => exact ⟨by rw [h0, legendre]; simp, by rw [step0, legendre]⟩
    | succ n ih =>
      refine ⟨ih.2, ?_⟩
      have hn : (n : ℂ) + 2 ≠ 0 := by
        have : ((n + 2 : ℕ) : ℂ) ≠ 0 := by exact_mod_cast (by omega : n + 2 ≠ 0)
        push_cast at this; exact this
      have s := step n
      rw [ih.1, ih.2] at s
      rw [show n + 1 + 1 = n + 2 from rfl, legendre]
      push_cast
      rw [eq_div_iff hn]
      linear_combination s
  exact both.1

/-- The Legendre polynomial of a cosine as a sum of cosines. -/
theorem legendre_cos (n : Nat) (t : ℝ) :
    legendre n (Real.cos t) = ∑ k ∈ Finset.range (n + 1), g k * g (n - k) * Real.cos (((n : ℝ) - 2 * k) * t) := by
  have h := legendre_coeff (Complex.exp (-(t * Complex.I))) (Complex.exp (t * Complex.I)) (Real.cos t)
    (by rw [← Complex.exp_add]; simp) (by rw [Complex.ofReal_cos, Complex.cos]; ring_nf) n
  rw [PowerSeries.coeff_mul, Finset.Nat.sum_antidiagonal_eq_sum_range_succ_mk] at h
  have h' := congrArg Complex.re h
  rw [Complex.ofReal_re, Complex.re_sum] at h'
  rw [← h']
  refine Finset.sum_congr rfl fun k hk => ?_
  have hk : k ≤ n := by rw [Finset.mem_range] at hk; omega
  simp only [G, PowerSeries.coeff_mk]
  have e : (g k : ℂ) * Complex.exp (-(t * Complex.I)) ^ k * ((g (n - k) : ℂ) * Complex.exp (t * Complex.I) ^ (n - k)) =
      ((g k * g (n - k) : ℝ) : ℂ) * Complex.exp (((((n : ℝ) - 2 * k) * t : ℝ) : ℂ) * Complex.I) := by
    rw [← Complex.exp_nat_mul, ← Complex.exp_nat_mul]
    have : Complex.exp ((k : ℂ) * -(t * Complex.I)) * Complex.exp (((n - k : ℕ) : ℂ) * (t * Complex.I)) =
        Complex.exp (((((n : ℝ) - 2 * k) * t : ℝ) : ℂ) * Complex.I) := by
      rw [← Complex.exp_add]; congr 1; push_cast [Nat.cast_sub hk]; ring
    rw [← this]; push_cast; ring
  rw [e, Complex.re_ofReal_mul, Complex.exp_ofReal_mul_I_re]

/-- The half of a symmetric sum. -/
theorem half_sum (n : Nat) (T : Nat → ℝ) (hT : ∀ k ≤ n, T (n - k) = T k) :
    ∑ k ∈ Finset.range (n + 1), T k = 2 * ∑ k ∈ Finset.range (n / 2 + 1), (if 2 * k = n then 0.5 * T k else T k) := by
  have refl : ∀ m, m ≤ n + 1 → ∑ k ∈ Finset.range m, T (n + 1 - m + k) = ∑ k ∈ Finset.range m, T k := by
    intro m hm
    rw [← Finset.sum_range_reflect (fun k => T (n + 1 - m + k)) m]
    refine Finset.sum_congr rfl fun k hk => ?_
    rw [Finset.mem_range] at hk
    rw [show n + 1 - m + (m - 1 - k) = n - k by omega, hT k (by omega)]
  rcases Nat.even_or_odd' n with ⟨m, h | h⟩
  · have e1 : n + 1 = m + (1 + m) := by omega
    have r := refl m (by omega)
    rw [show n + 1 - m = m + 1 by omega] at r
    rw [e1, Finset.sum_range_add, Finset.sum_range_add, Finset.sum_range_one]
    have : ∑ k ∈ Finset.range m, T (m + (1 + k)) = ∑ k ∈ Finset.range m, T k := by
      rw [← r]; exact Finset.sum_congr rfl fun k _ => by rw [show m + (1 + k) = m + 1 + k by omega]
    rw [this, show n / 2 = m by omega, Finset.sum_range_succ, if_pos h.symm]
    have : ∑ k ∈ Finset.range m, (if 2 * k = n then 0.5 * T k else T k) = ∑ k ∈ Finset.range m, T k :=
      Finset.sum_congr rfl fun k hk => by rw [Finset.mem_range] at hk; rw [if_neg (by omega)]
    rw [this, Nat.add_zero]; ring
  · have r := refl (m + 1) (by omega)
    rw [show n + 1 - (m + 1) = m + 1 by omega] at r
    rw [show n + 1 = (m + 1) + (m + 1) by omega, Finset.sum_range_add, r, show n / 2 + 1 = m + 1 by omega]
    have : ∑ k ∈ Finset.range (m + 1), (if 2 * k = n then 0.5 * T k else T k) = ∑ k ∈ Finset.range (m + 1), T k :=
      Finset.sum_congr rfl fun k _ => by rw [if_neg (by omega)]
    rw [this]; ring

theorem norm_eq (n : Nat) : norm n = √2 * (g n * √(2 * (n : ℝ) + 1)) := by
  induction n with
  | zero => simp [norm, g]
  | succ n ih =>
    have hn : (0 : ℝ) < (n : ℝ) + 1 := by positivity
    have e : 1 - 1 / ((2 * ((n : ℝ) + 1)) * (2 * ((n : ℝ) + 1))) = ((2 * n + 1) * (2 * (n + 1) + 1)) / (2 * ((n : ℝ) + 1)) ^ 2 := by
      field_simp; ring
    have p1 : (0 : ℝ) ≤ 2 * n + 1 := by positivity
    have p3 : (0 : ℝ) ≤ 2 * ((n : ℝ) + 1) := by positivity
    rw [norm, ih, e, Real.sqrt_div' _ (sq_nonneg _), Real.sqrt_sq p3, Real.sqrt_mul p1, g]
    push_cast
    have s : √(2 * (n : ℝ) + 1) * √(2 * (n : ℝ) + 1) = 2 * n + 1 := Real.mul_self_sqrt p1
    field_simp
    linear_combination g n * s

theorem g_ratio (n j : Nat) (h : j < n) :
    (2 * (j : ℝ) + 1) * ((n : ℝ) - ((j : ℝ) + 1) + 1) / (((j : ℝ) + 1) * (2 * (n : ℝ) - (2 * (j : ℝ) + 1))) * (g j * g (n - j) / g n) =
      g (j + 1) * g (n - (j + 1)) / g n := by
  obtain ⟨m, rfl⟩ : ∃ m, n = j + 1 + m := ⟨n - (j + 1), by omega⟩
  rw [show j + 1 + m - j = m + 1 by omega, show j + 1 + m - (j + 1) = m by omega, g, g]
  push_cast
  have h1 : (2 * ((j : ℝ) + 1 + m) - (2 * j + 1)) = 2 * m + 1 := by ring
  have h2 : ((j : ℝ) + 1 + m - (j + 1) + 1) = m + 1 := by ring
  have := (g_pos (j + 1 + m)).ne'
  have hm : (2 * (m : ℝ) + 1) ≠ 0 := by positivity
  have hm1 : ((m : ℝ) + 1) ≠ 0 := by positivity
  have hj : ((j : ℝ) + 1) ≠ 0 := by positivity
  rw [h1, h2]
  field_simp

theorem loop_spec (n : Nat) (t : ℝ) (i j : Nat) (h : i + j ≤ n / 2 + 1) (s : ℝ) (hn : 0 < n) :
    loop n n (2 * n) t i (2 * j) (((n : ℝ) - 2 * j) * t) s (g j * g (n - j) / g n) (2 * j - 1) j =
      s + ∑ k ∈ Finset.range i, (if 2 * (j + k) = n then 0.5 * (g (j + k) * g (n - (j + k)) / g n * Real.cos (((n : ℝ) - 2 * ((j + k : ℕ) : ℝ)) * t))
        else g (j + k) * g (n - (j + k)) / g n * Real.cos (((n : ℝ) - 2 * ((j + k : ℕ) : ℝ)) * t)) := by
  induction i generalizing j s with
  | zero => simp [loop]
  | succ i ih =>
    rw [loop]
    rw [Finset.sum_range_succ']
    by_cases hl : 2 * j = n
    · have hi : i = 0 := by omega
      subst hi
      simp only [loop, if_pos hl, Finset.sum_range_zero, zero_add, Nat.add_zero]
      ring
    · simp only [if_neg hl, Nat.add_zero]
      have e1 : ((2 : ℝ) * j - 1 + 2) = 2 * j + 1 := by ring
      have hr := g_ratio n j (by omega)
      rw [e1, hr, show 2 * j + 2 = 2 * (j + 1) by ring]
      have ih' := ih (j + 1) (by omega) (s + g j * g (n - j) / g n * Real.cos (((n : ℝ) - 2 * j) * t))
      rw [show t * ((n : ℝ) - ((2 * j : ℕ) : ℝ) - 2) = ((n : ℝ) - 2 * ((j + 1 : ℕ) : ℝ)) * t by push_cast; ring,
        show (2 : ℝ) * j + 1 = 2 * ((j + 1 : ℕ) : ℝ) - 1 by push_cast; ring, show (j : ℝ) + 1 = ((j + 1 : ℕ) : ℝ) by push_cast; rfl, ih']
      simp only [show ∀ k, j + 1 + k = j + (k + 1) from fun k => by omega]
      ring

/-- C167.  For a wave number of 1 or more the value is the Legendre polynomial, normalized: `√((2n+1)/2)·P(coa)`. -/
theorem C167 (coa : ℝ) (ir : Nat) (junk : ℝ × ℝ) (h1 : -1 ≤ coa) (h2 : coa ≤ 1) (hn : 0 < ir) :
    ordleg8 coa ir junk = √((2 * (ir : ℝ) + 1) / 2) * legendre ir coa := by
  have hg := (g_pos ir).ne'
  have hl := loop_spec ir (Real.arccos coa) (ir / 2 + 1) 0 (by omega) 0 hn
  have c0 : g 0 * g (ir - 0) / g ir = 1 := by rw [Nat.sub_zero, g, one_mul, div_self hg]
  rw [c0] at hl
  simp only [Nat.cast_zero, mul_zero, sub_zero, zero_sub, zero_add] at hl
  have lc := legendre_cos ir (Real.arccos coa)
  rw [Real.cos_arccos h1 h2] at lc
  have hs := half_sum ir (fun k => g k * g (ir - k) * Real.cos (((ir : ℝ) - 2 * k) * Real.arccos coa)) (by
    intro k hk
    rw [show ir - (ir - k) = k by omega, show ((ir : ℝ) - 2 * ((ir - k : ℕ) : ℝ)) * Real.arccos coa = -(((ir : ℝ) - 2 * k) * Real.arccos coa) by
      push_cast [Nat.cast_sub hk]; ring, Real.cos_neg]
    ring)
  rw [hs] at lc
  have key : (∑ k ∈ Finset.range (ir / 2 + 1), (if 2 * k = ir then 0.5 * (g k * g (ir - k) / g ir * Real.cos (((ir : ℝ) - 2 * (k : ℝ)) * Real.arccos coa))
        else g k * g (ir - k) / g ir * Real.cos (((ir : ℝ) - 2 * (k : ℝ)) * Real.arccos coa))) = legendre ir coa / (2 * g ir) := by
    rw [lc, eq_div_iff (by positivity), Finset.sum_mul, Finset.mul_sum]
    refine Finset.sum_congr rfl fun k _ => ?_
    split <;> field_simp
  simp only [ordleg8, if_neg (by omega : ir ≠ 0)]
  rw [hl, key, norm_eq]
  have s2 : √2 * √2 = (2 : ℝ) := Real.mul_self_sqrt (by norm_num)
  have s2p : (0 : ℝ) < √2 := by positivity
  rw [Real.sqrt_div' _ (by norm_num)]
  field_simp
  linear_combination legendre ir coa * s2

/-- C167.  For the wave number 0 the value depends on a variable which is not set: the right one if it is 0. -/
theorem C167_zero_witness : ordleg8 0 0 (0, 0) = √(1 / 2) * legendre 0 0 ∧ ordleg8 0 0 (1, 0) = 0 := by
  have s2 : √(1 / 2 : ℝ) = 1 / √2 := by rw [Real.sqrt_div (by norm_num)]; simp
  have this : √2 * √2 = (2 : ℝ) := Real.mul_self_sqrt (by norm_num)
  constructor
  · simp only [ordleg8, if_true, Nat.zero_div, zero_add, loop, norm, legendre, s2, zero_mul, Real.cos_zero]
    field_simp
    linear_combination 0.5 * this
  · simp [ordleg8, loop]

/-- The first polynomials. -/
example (x : ℝ) : legendre 2 x = (3 * x ^ 2 - 1) / 2 ∧ legendre 3 x = (5 * x ^ 3 - 3 * x) / 2 := by
  constructor <;> simp only [legendre] <;> push_cast <;> ring


end Verif.OrdLeg
