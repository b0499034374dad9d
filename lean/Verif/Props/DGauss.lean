import Verif.DGauss
import Mathlib.Tactic
import Verif.Props.Gauss

namespace Verif.DGauss

open Verif.OrdLeg Verif.Gauss

/-! # C170: roots of Legendre polynomials and Gaussian latitudes -/

theorem norm_mul {t : ℝ} (ht : 0 < t) (y : ℝ) : √(2 / t) * (√(t / 2) * y) = y := by
  rw [← mul_assoc, ← Real.sqrt_mul (by positivity), show 2 / t * (t / 2) = 1 by field_simp, Real.sqrt_one, one_mul]

/-- C170.  The correction is that of Newton's method for the Legendre polynomial. -/
theorem C170_delta (n : Nat) (hn : 2 ≤ n) (x : ℝ) (h1 : -1 < x) (h2 : x < 1) :
    delta n x = -legendre n x / deriv (legendre n) x := by
  obtain ⟨m, rfl⟩ : ∃ m, n = m + 1 := ⟨n - 1, by omega⟩
  have hx : x ^ 2 - 1 ≠ 0 := by nlinarith
  have c := dleg_closed m x
  rw [(dleg_deriv (m + 1) x).deriv]
  simp only [delta]
  rw [leg_normed h1.le h2.le (by omega), leg_normed h1.le h2.le (by omega), show m + 1 - 1 = m by omega, normed, normed]
  have e1 : √(2 / (2 * ((m + 1 : ℕ) : ℝ) + 1)) * (√((2 * ((m + 1 : ℕ) : ℝ) + 1) / 2) * legendre (m + 1) x) = legendre (m + 1) x :=
    norm_mul (by positivity) _
  have e2 : √(2 / (2 * ((m + 1 : ℕ) : ℝ) - 1)) * (√((2 * (m : ℝ) + 1) / 2) * legendre m x) = legendre m x := by
    rw [show 2 * ((m + 1 : ℕ) : ℝ) - 1 = 2 * (m : ℝ) + 1 by push_cast; ring]
    exact norm_mul (by positivity) _
  rw [e1, e2]
  push_cast
  rw [← c]
  by_cases hz : dleg (m + 1) x = 0
  · rw [hz]; simp
  · field_simp

/-- C170.  When the loop for a root ends the last correction was not larger than the tolerance. -/
theorem C170_refine (n : Nat) (hn : 2 ≤ n) (fuel : Nat) (x0 y : ℝ) (h : refine n fuel x0 = some y) :
    ∃ x, |y - x| ≤ 1 / 10 ^ 6 ∧ (-1 < x → x < 1 → y = x - legendre n x / deriv (legendre n) x) := by
  induction fuel generalizing x0 with
  | zero => rw [refine] at h; exact absurd h (by simp)
  | succ fuel ih =>
    rw [refine] at h
    split at h
    · exact ih _ h
    · rename_i hl
      have h := Option.some.inj h
      refine ⟨x0, by rw [← h, add_sub_cancel_left]; exact not_lt.1 hl, fun h1 h2 => ?_⟩
      rw [← h, C170_delta n hn x0 h1 h2]; ring

/-- C170.  A root is kept. -/
theorem C170_kept (n : Nat) (hn : 2 ≤ n) (fuel : Nat) (x : ℝ) (h1 : -1 < x) (h2 : x < 1) (hr : legendre n x = 0) :
    refine n (fuel + 1) x = some x := by
  have : delta n x = 0 := by rw [C170_delta n hn x h1 h2, hr]; simp
  rw [refine, this, if_neg (by simp), add_zero]

/-- What the second loop leaves. -/
theorem loop_spec (n fuel : Nat) (a : Nat → ℝ) (i : Nat) (hi : i ≤ n / 2) (b : Nat → ℝ) (h : loop n fuel i a = some b) :
    (∀ p, 1 ≤ p → p ≤ i → refine n fuel (a p) = some (b p) ∧ b (n + 1 - p) = -b p) ∧
    ∀ p, (p = 0 ∨ i < p) → p < n + 1 - i → b p = a p := by
  induction i generalizing b with
  | zero =>
    have h : some a = some b := h
    cases h
    exact ⟨fun p h1 h2 => by omega, fun p _ _ => rfl⟩
  | succ i ih =>
    rw [loop] at h
    obtain ⟨c, hc, h⟩ := Option.bind_eq_some_iff.1 h
    obtain ⟨r, hr, h⟩ := Option.map_eq_some_iff.1 h
    obtain ⟨ih1, ih2⟩ := ih (by omega) c hc
    have o : ∀ p, b p = if p = n - i then -r else if p = i + 1 then r else c p := by
      intro p
      rw [← h, Function.update_apply, Function.update_apply, show n + 1 - (i + 1) = n - i by omega]
    refine ⟨fun p h1 h2 => ?_, fun p h1 h2 => ?_⟩
    · rcases Nat.lt_or_ge i p with hp | hp
      · have : p = i + 1 := by omega
        subst this
        rw [o, o, if_neg (by omega), if_pos rfl, if_pos (by omega)]
        rw [ih2 (i + 1) (Or.inr (by omega)) (by omega)] at hr
        exact ⟨hr, rfl⟩
      · obtain ⟨k1, k2⟩ := ih1 p h1 hp
        rw [o, o, if_neg (by omega), if_neg (by omega), if_neg (by omega), if_neg (by omega)]
        exact ⟨k1, k2⟩
    · rw [o, if_neg (by omega), if_neg (by omega)]
      exact ih2 p (by omega) (by omega)

/-- C170.  For the globe and the north: each root is the one its first value leads to, the roots are symmetric, and that in the middle
is 0. -/
theorem C170_all (n kase fuel : Nat) (hk : kase ≠ 2) (a b : Nat → ℝ) (h : dgauss n kase fuel a = some b) :
    (∀ p, 1 ≤ p → p ≤ n / 2 → refine n fuel (guess n p) = some (b p)) ∧
    (∀ p, 1 ≤ p → p ≤ n → b (n + 1 - p) = -b p) ∧ (n % 2 = 1 → b (n / 2 + 1) = 0) := by
  rw [dgauss] at h
  obtain ⟨c, hc, h⟩ := Option.map_eq_some_iff.1 h
  obtain ⟨s1, s2⟩ := loop_spec n fuel _ _ le_rfl c hc
  have keep : ∀ p, p ≠ n / 2 + 1 ∨ n % 2 = 0 → b p = c p := by
    intro p hp
    rw [← h]
    by_cases hn : n % 2 = 0
    · rw [if_pos hn]
    · rw [if_neg hn, if_pos hk, Function.update_apply, if_neg (by omega)]
  have mid : n % 2 = 1 → b (n / 2 + 1) = 0 := by
    intro hn
    rw [← h, if_neg (by omega), if_pos hk, Function.update_self]
  refine ⟨fun p h1 h2 => ?_, fun p h1 h2 => ?_, mid⟩
  · have := (s1 p h1 h2).1
    rw [keep p (by omega), ← this, start]
    simp only [if_pos hk, if_pos (show 1 ≤ p ∧ p ≤ n / 2 from ⟨h1, h2⟩)]
  · rcases Nat.lt_trichotomy p (n + 1 - p) with hp | hp | hp
    · rw [keep p (by omega), keep _ (by omega)]
      exact (s1 p h1 (by omega)).2
    · have hp' : p = n / 2 + 1 := by omega
      rw [← hp, hp', mid (by omega)]; simp
    · rw [keep p (by omega), keep _ (by omega)]
      have := (s1 (n + 1 - p) (by omega) (by omega)).2
      rw [show n + 1 - (n + 1 - p) = p by omega] at this
      rw [this, neg_neg]

/-- The polynomials are even or odd. -/
theorem parity (n : Nat) (x : ℝ) : legendre n (-x) = (-1) ^ n * legendre n x := by
  have both : ∀ n, legendre n (-x) = (-1) ^ n * legendre n x ∧ legendre (n + 1) (-x) = (-1) ^ (n + 1) * legendre (n + 1) x := by
    intro n
    induction n with
    | zero => simp [legendre]
    | succ n ih =>
      refine ⟨ih.2, ?_⟩
      rw [show n + 1 + 1 = n + 2 from rfl, legendre, ih.1, ih.2, legendre, pow_succ, pow_succ, pow_add]
      ring
  exact (both n).1

/-- C170.  If the first half are roots, all are. -/
theorem C170_roots (n kase fuel : Nat) (hk : kase ≠ 2) (a b : Nat → ℝ) (h : dgauss n kase fuel a = some b)
    (hr : ∀ p, 1 ≤ p → p ≤ n / 2 → legendre n (b p) = 0) (p : Nat) (h1 : 1 ≤ p) (h2 : p ≤ n) : legendre n (b p) = 0 := by
  obtain ⟨_, k2, k3⟩ := C170_all n kase fuel hk a b h
  rcases Nat.lt_trichotomy p (n + 1 - p) with hp | hp | hp
  · exact hr p h1 (by omega)
  · have hp' : p = n / 2 + 1 := by omega
    rw [hp', k3 (by omega)]
    have := parity n 0
    rw [neg_zero, Odd.neg_one_pow (Nat.odd_iff.2 (by omega))] at this
    linarith
  · have e := k2 (n + 1 - p) (by omega) (by omega)
    rw [show n + 1 - (n + 1 - p) = p by omega] at e
    rw [e, parity, hr _ (by omega) (by omega), mul_zero]

/-- C170.  In the south with an odd order, the first values are one position further than the loop goes: the last is not refined, and the
loop begins with what was in the array before. -/
theorem C170_south_witness (l fuel : Nat) (hl : 1 ≤ l) (a b : Nat → ℝ) (h : dgauss (2 * l + 1) 2 fuel a = some b) :
    b (l + 1) = guess (2 * l + 1) (2 * l + 1) ∧ refine (2 * l + 1) fuel (a 1) = some (-b (2 * l + 1)) := by
  rw [dgauss] at h
  obtain ⟨c, hc, h⟩ := Option.map_eq_some_iff.1 h
  rw [show (2 * l + 1) / 2 = l by omega] at hc
  obtain ⟨s1, s2⟩ := loop_spec _ fuel _ _ (by omega) c hc
  have keep : ∀ p, p ≠ 1 → b p = c p := by
    intro p hp
    rw [← h, if_neg (by omega), if_neg (by simp), Function.update_apply, if_neg hp]
  have o : (2 * l + 1) % 2 = 1 := by omega
  have o2 : (2 * l + 1) / 2 = l := by omega
  refine ⟨?_, ?_⟩
  · rw [keep _ (by omega), s2 (l + 1) (Or.inr (by omega)) (by omega), start]
    simp only [o, o2]
    rw [if_neg (by simp), if_pos (by omega), show l + 1 - 1 + l + 1 = 2 * l + 1 by omega]
  · obtain ⟨k1, k2⟩ := s1 1 le_rfl hl
    rw [keep _ (by omega), show 2 * l + 1 = 2 * l + 1 + 1 - 1 by omega, k2, neg_neg]
    rw [show 2 * l + 1 + 1 - 1 = 2 * l + 1 by omega, ← k1, start]
    simp only [o, o2]
    rw [if_neg (by simp), if_neg (by omega)]

theorem lat_eq (y : ℝ) : 90 - 180 / Real.pi * Real.arccos y = 180 / Real.pi * Real.arcsin y := by
  have := Real.pi_ne_zero
  rw [Real.arccos]; field_simp; ring

/-- C170.  The latitudes are those of the roots from south to north: all of them, the northern half, or the southern half. -/
theorem C170_lat (nj hem : Nat) (g : Nat → ℝ) (j : Nat) (h1 : 1 ≤ j) (h2 : j ≤ nj) :
    let p := if hem = 0 ∨ hem = 1 then nj + 1 - j else 2 * nj + 1 - j
    glat nj hem g j = 180 / Real.pi * Real.arcsin (g p) := by
  have e : glat nj hem g j = 90 - 180 / Real.pi * Real.arccos (g (if hem = 0 ∨ hem = 1 then nj + 1 - j else 2 * nj + 1 - j)) := by
    simp only [glat]
    by_cases c0 : hem = 0
    · simp [c0, h1, h2]
    · by_cases c1 : hem = 1
      · subst c1
        simp only [ne_eq, one_ne_zero, not_false_eq_true, if_true, not_true, if_false, or_true]
        rw [if_pos (by omega), show nj * 2 + 1 - (j + nj) = nj + 1 - j by omega]
      · simp only [ne_eq, c0, c1, not_false_eq_true, if_true, or_self, if_false]
        rw [if_pos (by omega), mul_comm nj 2]
  simp only
  rw [e, lat_eq]

/-- C170.  They increase if the roots decrease, and those of the globe are symmetric if the roots are. -/
theorem C170_order (nj hem : Nat) (g : Nat → ℝ) (hg : ∀ p, 1 ≤ p → p ≤ 2 * nj → -1 ≤ g p ∧ g p ≤ 1)
    (hd : ∀ p q, 1 ≤ p → p < q → q ≤ 2 * nj → g q < g p) (i j : Nat) (h1 : 1 ≤ i) (h2 : i < j) (h3 : j ≤ nj) :
    glat nj hem g i < glat nj hem g j := by
  have a := C170_lat nj hem g i h1 (by omega)
  have b := C170_lat nj hem g j (by omega) h3
  simp only at a b
  rw [a, b]
  have hp := Real.pi_pos
  refine mul_lt_mul_of_pos_left ?_ (by positivity)
  split_ifs
  · exact Real.strictMonoOn_arcsin (hg _ (by omega) (by omega)) (hg _ (by omega) (by omega)) (hd _ _ (by omega) (by omega) (by omega))
  · exact Real.strictMonoOn_arcsin (hg _ (by omega) (by omega)) (hg _ (by omega) (by omega)) (hd _ _ (by omega) (by omega) (by omega))

/-- C170.  With the roots of `DGAUSS` the latitudes of the globe are symmetric about the equator. -/
theorem C170_symmetric (nj fuel : Nat) (a g : Nat → ℝ) (h : dgauss nj 0 fuel a = some g) (j : Nat) (h1 : 1 ≤ j) (h2 : j ≤ nj) :
    glat nj 0 g (nj + 1 - j) = -glat nj 0 g j := by
  have e1 := C170_lat nj 0 g j h1 h2
  have e2 := C170_lat nj 0 g (nj + 1 - j) (by omega) (by omega)
  simp only [true_or, if_true] at e1 e2
  rw [e1, e2, show nj + 1 - (nj + 1 - j) = j by omega, (C170_all nj 0 fuel (by norm_num) a g h).2.1 j h1 h2, Real.arcsin_neg]
  ring

/-- The order 1: one root, no loop. -/
example (a : Nat → ℝ) : ∃ b, dgauss 1 0 0 a = some b ∧ b 1 = 0 := by
  refine ⟨_, rfl, ?_⟩
  simp

/-- A root of the order 2 ends the loop. -/
example : refine 2 1 (1 / √3) = some (1 / √3) := by
  have h3 : √3 * √3 = (3 : ℝ) := Real.mul_self_sqrt (by norm_num)
  have p : (0 : ℝ) < √3 := by positivity
  have g1 : (1 : ℝ) < √3 := by nlinarith
  refine C170_kept 2 le_rfl 0 _ ?_ ?_ ?_
  · have : 0 < 1 / √3 := by positivity
    linarith
  · rw [div_lt_one p]; exact g1
  · have : legendre 2 (1 / √3) = (3 * (1 / √3) ^ 2 - 1) / 2 := by
      simp only [legendre]; push_cast; ring
    rw [this, div_pow, sq √3, h3]; norm_num


end Verif.DGauss
