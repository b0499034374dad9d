import Verif.Props.Convip

/-!
C55: levels encoded in the old style.
-/
namespace Props.ConvipOld
open Verif.Convip Verif.Grid Props.Convip
open Props.Grid hiding Good good_nearest decode_code

/-- The values of the old style with the error that the encoding may make. -/
def Old (kind : Nat) (p tol : ℚ) : Prop :=
  (kind = 0 ∧ 0 ≤ p ∧ p ≤ 99995 ∧ tol = 252 / 100) ∨
  (kind = 1 ∧ 0 ≤ p ∧ p ≤ 1 ∧ tol = 51 / 10 ^ 6) ∨
  (kind = 2 ∧ 10 ≤ p ∧ p ≤ 10994 / 10 ∧ tol = 1 / 2) ∨
  (kind = 2 ∧ 1 ≤ p ∧ p ≤ 9974 / 1000 ∧ tol = 251 / 10 ^ 4) ∨
  (kind = 2 ∧ 1 / 10 ≤ p ∧ p ≤ 9974 / 10 ^ 4 ∧ tol = 251 / 10 ^ 5) ∨
  (kind = 2 ∧ 1 / 100 ≤ p ∧ p ≤ 9974 / 10 ^ 5 ∧ tol = 251 / 10 ^ 6) ∨
  (kind = 2 ∧ 1 / 1000 ≤ p ∧ p ≤ 9974 / 10 ^ 6 ∧ tol = 251 / 10 ^ 7) ∨
  (kind = 2 ∧ 0 ≤ p ∧ p ≤ 99 / 10 ^ 5 ∧ tol = 1 / 1000) ∨
  (kind = 3 ∧ -(49 / 100) ≤ p ∧ p ≤ 1004 / 10 ∧ tol = 1 / 2)

theorem r4_int {R : Rounding} (hR : Good R) (n : Int) (h : |n| < 2 ^ 24) : R.r4 n = n := r4_single hR _ (single_int n h)

/-- The integer of a scaled value. -/
theorem scaled {R : Rounding} (hR : Good R) (s p : ℚ) (a b : Int) (hs : 0 ≤ s * p) (h1 : a - 2 / 5 ≤ s * p) (h2 : s * p ≤ b + 49 / 100)
    (hb : b ≤ 10000) :
    a ≤ nint (R.r4 (s * p)) ∧ nint (R.r4 (s * p)) ≤ b ∧ |(nint (R.r4 (s * p)) : ℚ) - s * p| ≤ 1 / 2 + 7 / 10 ^ 4 ∧
      (b ≤ 200 → |(nint (R.r4 (s * p)) : ℚ) - s * p| ≤ 1 / 2 + 2 / 10 ^ 5) := by
  have hr := r4_bound hR (s * p) hs
  have hn := nint_near (R.r4 (s * p))
  have hbq : (b : ℚ) ≤ 10000 := by exact_mod_cast hb
  have hr1 : s * p - R.r4 (s * p) ≤ 7 / 10 ^ 4 := by linarith [hr.1]
  have hr2 : R.r4 (s * p) - s * p ≤ 7 / 10 ^ 4 := by linarith [hr.2]
  refine ⟨?_, ?_, ?_, ?_⟩
  · exact (nint_range _ a (b + 1) (by linarith) (by push_cast; linarith)).1
  · exact (nint_range _ (a - 1) b (by push_cast; linarith) (by linarith)).2
  · rw [abs_le]
    constructor <;> linarith [hn.1, hn.2]
  · intro hb2
    have hbq2 : (b : ℚ) ≤ 200 := by exact_mod_cast hb2
    have hr3 : s * p - R.r4 (s * p) ≤ 2 / 10 ^ 5 := by linarith [hr.1]
    have hr4 : R.r4 (s * p) - s * p ≤ 2 / 10 ^ 5 := by linarith [hr.2]
    rw [abs_le]
    constructor <;> linarith [hn.1, hn.2]

/-- Back from an integer of at most 200 units. -/
theorem unscaled {R : Rounding} (hR : Good R) (s p tol : ℚ) (n : Int) (hs : 1 ≤ s) (h0 : 0 ≤ n) (h1 : n ≤ 200)
    (hn : |(n : ℚ) - s * p| ≤ 1 / 2 + 2 / 10 ^ 5) (ht : (1 / 2 + 1 / 10 ^ 4) / s ≤ tol) :
    |R.r4 (R.r8 (R.r4 (n : ℚ) / s)) - p| ≤ tol := by
  rw [r4_int hR n (by rw [abs_of_nonneg h0]; omega)]
  have hs0 : 0 < s := by linarith
  have hq0 : (0 : ℚ) ≤ n := by exact_mod_cast h0
  have hq1 : (n : ℚ) ≤ 200 := by exact_mod_cast h1
  have hd : 0 ≤ (n : ℚ) / s := div_nonneg hq0 (le_of_lt hs0)
  have h8 := r8_bound hR ((n : ℚ) / s) hd
  have h8p : 0 ≤ R.r8 ((n : ℚ) / s) := by linarith [h8.1]
  have h4 := r4_bound hR (R.r8 ((n : ℚ) / s)) h8p
  have hx : |(n : ℚ) / s - p| ≤ (1 / 2 + 2 / 10 ^ 5) / s := by
    have e : (n : ℚ) / s - p = (n - s * p) / s := by field_simp
    rw [e, abs_div, abs_of_pos hs0]
    exact div_le_div_of_nonneg_right hn (le_of_lt hs0)
  have hx200 : (n : ℚ) / s ≤ 200 / s := div_le_div_of_nonneg_right hq1 (le_of_lt hs0)
  have e1 : (1 / 2 + 1 / 10 ^ 4) / s = (1 / 2 + 1 / 10 ^ 4) * (1 / s) := by ring
  have e2 : (1 / 2 + 2 / 10 ^ 5) / s = (1 / 2 + 2 / 10 ^ 5) * (1 / s) := by ring
  have e3 : 200 / s = 200 * (1 / s) := by ring
  have hs1 : 0 < 1 / s := by positivity
  rw [e1] at ht
  rw [e2, abs_le] at hx
  rw [e3] at hx200
  rw [abs_le]
  generalize 1 / s = u at *
  generalize (n : ℚ) / s = x at *
  constructor <;> linarith [h8.1, h8.2, h4.1, h4.2, hx.1, hx.2]

theorem encode_pressure (R : Rounding) (p : ℚ) (h0 : 0 < p) (h1 : p < 1100) :
    encodeOld R 2 p = if R.r4 (999999 / 100000) ≤ p then nint p
    else if p ≥ R.r4 (999999 / 1000000) then 1800 + nint (R.r4 (20 * p))
    else if p ≥ R.r4 (999999 / 10000000) then 1600 + nint (R.r4 (200 * p))
    else if p ≥ R.r4 (999999 / 100000000) then 1400 + nint (R.r4 (2000 * p))
    else if p ≥ R.r4 (999999 / 1000000000) then 1200 + nint (R.r4 (20000 * p))
    else 0 := by
  unfold encodeOld
  have e : invalidKind 2 = false := by decide
  rw [e]
  simp only [Bool.false_eq_true, if_false]
  rw [if_neg (by intro h; linarith [h.2]), if_neg (by omega), if_neg (by omega), if_pos trivial, if_neg (by simp only [not_not]; exact ⟨by linarith, h1⟩)]

/-- The limits of the ranges of pressure. -/
theorem limits {R : Rounding} (hR : Good R) :
    (9999 / 1000 < R.r4 (999999 / 100000) ∧ R.r4 (999999 / 100000) ≤ 10) ∧
    (9999 / 10 ^ 4 < R.r4 (999999 / 1000000) ∧ R.r4 (999999 / 1000000) ≤ 1) ∧
    (9999 / 10 ^ 5 < R.r4 (999999 / 10000000) ∧ R.r4 (999999 / 10000000) ≤ 1 / 10) ∧
    (9999 / 10 ^ 6 < R.r4 (999999 / 100000000) ∧ R.r4 (999999 / 100000000) ≤ 1 / 100) ∧
    (9999 / 10 ^ 7 < R.r4 (999999 / 1000000000) ∧ R.r4 (999999 / 1000000000) ≤ 1 / 1000) := by
  have a := r4_bound hR (999999 / 100000) (by norm_num)
  have b := r4_bound hR (999999 / 1000000) (by norm_num)
  have c := r4_bound hR (999999 / 10000000) (by norm_num)
  have d := r4_bound hR (999999 / 100000000) (by norm_num)
  have e := r4_bound hR (999999 / 1000000000) (by norm_num)
  refine ⟨⟨?_, ?_⟩, ⟨?_, ?_⟩, ⟨?_, ?_⟩, ⟨?_, ?_⟩, ⟨?_, ?_⟩⟩ <;>
    linarith [a.1, a.2, b.1, b.2, c.1, c.2, d.1, d.2, e.1, e.2]

/-- **C55**.  A level encoded in the old style is decoded as the same kind with a value within half a unit (and the precision of
reals).  Missing: pressures just under 1100 and just under powers of ten, see `C55_high_witness`, `C55_ten_witness` and
`C55_one_witness`; heights out of the range, which come back as its limits. -/
theorem C55_partial {R : Rounding} (hR : Good R) (kind : Nat) (p tol : ℚ) (h : Old kind p tol) :
    ∃ p', decode R (encodeOld R kind p) = ((kind : Int), p') ∧ |p' - p| ≤ tol := by
  obtain ⟨⟨a1, a2⟩, ⟨b1, b2⟩, ⟨c1, c2⟩, ⟨d1, d2⟩, ⟨e1, e2⟩⟩ := limits hR
  rcases h with ⟨rfl, h1, h2, rfl⟩ | ⟨rfl, h1, h2, rfl⟩ | ⟨rfl, h1, h2, rfl⟩ | ⟨rfl, h1, h2, rfl⟩ | ⟨rfl, h1, h2, rfl⟩ |
    ⟨rfl, h1, h2, rfl⟩ | ⟨rfl, h1, h2, rfl⟩ | ⟨rfl, h1, h2, rfl⟩ | ⟨rfl, h1, h2, rfl⟩
  · -- height
    obtain ⟨x, hx⟩ : ∃ x, x = R.r4 (R.r4 (p / 5) + 12001) := ⟨_, rfl⟩
    have r1 := r4_bound hR (p / 5) (by linarith)
    have r2 := r4_bound hR (R.r4 (p / 5) + 12001) (by linarith [r1.1])
    rw [← hx] at r2
    have hn := nint_near x
    have hr := nint_range x 12001 32000 (by push_cast; linarith [r1.1, r2.1]) (by push_cast; linarith [r1.2, r2.2])
    have henc : encodeOld R 0 p = nint x := by
      unfold encodeOld
      have e : invalidKind 0 = false := by decide
      rw [e]
      simp only [Bool.false_eq_true, if_false]
      rw [if_neg (by omega), if_pos trivial, ← hx]
      omega
    have hdec : decode R (nint x) = (0, R.r4 ((5 * (nint x - 12001) : Int) : ℚ)) := by
      unfold decode
      rw [if_neg (by omega), if_pos (by omega)]
    refine ⟨_, by rw [henc, hdec]; rfl, ?_⟩
    rw [r4_int hR _ (by rw [abs_lt]; constructor <;> omega)]
    push_cast
    rw [abs_le]
    constructor <;> linarith [r1.1, r1.2, r2.1, r2.2, hn.1, hn.2]
  · -- sigma
    obtain ⟨n1, n2, n3, -⟩ := scaled hR 10000 p 0 10000 (by linarith) (by push_cast; linarith) (by push_cast; linarith) (by norm_num)
    rw [mul_comm] at n1 n2 n3
    obtain ⟨n, hn⟩ : ∃ n, n = nint (R.r4 (p * 10000)) := ⟨_, rfl⟩
    rw [← hn] at n1 n2 n3
    have henc : encodeOld R 1 p = n + 2000 := by
      unfold encodeOld
      have e : invalidKind 1 = false := by decide
      rw [e]
      simp only [Bool.false_eq_true, if_false]
      rw [if_neg (by omega), if_neg (by omega), if_pos trivial, if_neg (by simp only [not_not]; exact ⟨h1, h2⟩), ← hn]
    have hdec : decode R (n + 2000) = (1, R.r4 (R.r4 ((n : Int) : ℚ) / 10000)) := by
      unfold decode
      rw [if_neg (by omega), if_neg (by omega), if_pos (by omega), show n + 2000 - 2000 = n by omega]
    refine ⟨_, by rw [henc, hdec]; rfl, ?_⟩
    rw [r4_int hR n (by rw [abs_lt]; constructor <;> omega)]
    have hq0 : (0 : ℚ) ≤ n := by exact_mod_cast n1
    have hq1 : (n : ℚ) ≤ 10000 := by exact_mod_cast n2
    have hr := r4_bound hR ((n : ℚ) / 10000) (by positivity)
    rw [abs_le] at n3 ⊢
    constructor <;> linarith [hr.1, hr.2, n3.1, n3.2]
  · -- pressure from 10
    have hr := nint_range p 10 1099 (by push_cast; linarith) (by push_cast; linarith)
    have hn := nint_near p
    have hdec : decode R (nint p) = (2, R.r4 ((nint p : Int) : ℚ)) := by
      unfold decode
      rw [if_neg (by omega), if_neg (by omega), if_neg (by omega), if_pos (by omega)]
    refine ⟨_, by rw [encode_pressure R p (by linarith) (by linarith), if_pos (by linarith), hdec]; rfl, ?_⟩
    rw [r4_int hR _ (by rw [abs_lt]; constructor <;> omega), abs_le]
    constructor <;> linarith [hn.1, hn.2]
  · obtain ⟨n1, n2, -, n3⟩ := scaled hR 20 p 20 199 (by linarith) (by push_cast; linarith) (by push_cast; linarith) (by norm_num)
    have n3 := n3 (by norm_num)
    rw [encode_pressure R p (by linarith) (by linarith), if_neg (by linarith), if_pos (by linarith)]
    generalize nint (R.r4 (20 * p)) = n at *
    have hdec : decode R (1800 + n) = (2, R.r4 (R.r8 (R.r4 ((n : Int) : ℚ) / 20))) := by
      unfold decode
      rw [if_neg (by omega), if_neg (by omega), if_neg (by omega), if_neg (by omega), if_neg (by omega), if_neg (by omega),
        if_neg (by omega), if_pos (by omega), show 1800 + n - 1800 = n by omega]
    exact ⟨_, by rw [hdec]; rfl, unscaled hR 20 p _ n (by norm_num) (by omega) (by omega) n3 (by norm_num)⟩
  · obtain ⟨n1, n2, -, n3⟩ := scaled hR 200 p 20 199 (by linarith) (by push_cast; linarith) (by push_cast; linarith) (by norm_num)
    have n3 := n3 (by norm_num)
    rw [encode_pressure R p (by linarith) (by linarith), if_neg (by linarith), if_neg (by linarith), if_pos (by linarith)]
    generalize nint (R.r4 (200 * p)) = n at *
    have hdec : decode R (1600 + n) = (2, R.r4 (R.r8 (R.r4 ((n : Int) : ℚ) / 200))) := by
      unfold decode
      rw [if_neg (by omega), if_neg (by omega), if_neg (by omega), if_neg (by omega), if_neg (by omega), if_neg (by omega),
        if_pos (by omega), show 1600 + n - 1600 = n by omega]
    exact ⟨_, by rw [hdec]; rfl, unscaled hR 200 p _ n (by norm_num) (by omega) (by omega) n3 (by norm_num)⟩
  · obtain ⟨n1, n2, -, n3⟩ := scaled hR 2000 p 20 199 (by linarith) (by push_cast; linarith) (by push_cast; linarith) (by norm_num)
    have n3 := n3 (by norm_num)
    rw [encode_pressure R p (by linarith) (by linarith), if_neg (by linarith), if_neg (by linarith), if_neg (by linarith),
      if_pos (by linarith)]
    generalize nint (R.r4 (2000 * p)) = n at *
    have hdec : decode R (1400 + n) = (2, R.r4 (R.r8 (R.r4 ((n : Int) : ℚ) / 2000))) := by
      unfold decode
      rw [if_neg (by omega), if_neg (by omega), if_neg (by omega), if_neg (by omega), if_neg (by omega), if_pos (by omega),
        show 1400 + n - 1400 = n by omega]
    exact ⟨_, by rw [hdec]; rfl, unscaled hR 2000 p _ n (by norm_num) (by omega) (by omega) n3 (by norm_num)⟩
  · obtain ⟨n1, n2, -, n3⟩ := scaled hR 20000 p 20 199 (by linarith) (by push_cast; linarith) (by push_cast; linarith) (by norm_num)
    have n3 := n3 (by norm_num)
    rw [encode_pressure R p (by linarith) (by linarith), if_neg (by linarith), if_neg (by linarith), if_neg (by linarith),
      if_neg (by linarith), if_pos (by linarith)]
    generalize nint (R.r4 (20000 * p)) = n at *
    have hdec : decode R (1200 + n) = (2, R.r4 (R.r8 (R.r4 ((n : Int) : ℚ) / 20000))) := by
      unfold decode
      rw [if_neg (by omega), if_neg (by omega), if_neg (by omega), if_neg (by omega), if_pos (by omega),
        show 1200 + n - 1200 = n by omega]
    exact ⟨_, by rw [hdec]; rfl, unscaled hR 20000 p _ n (by norm_num) (by omega) (by omega) n3 (by norm_num)⟩
  · have henc : encodeOld R 2 p = 0 := by
      by_cases hp : p = 0
      · unfold encodeOld
        have e : invalidKind 2 = false := by decide
        rw [e]
        simp only [Bool.false_eq_true, if_false]
        rw [if_pos ⟨trivial, hp⟩]
      · have : 0 < p := lt_of_le_of_ne h1 (Ne.symm hp)
        rw [encode_pressure R p this (by linarith), if_neg (by linarith), if_neg (by linarith), if_neg (by linarith),
          if_neg (by linarith), if_neg (by linarith)]
    refine ⟨0, ?_, ?_⟩
    · rw [henc]
      unfold decode
      norm_num
      exact r4_zero hR
    · rw [zero_sub, abs_neg, abs_of_nonneg h1]
      linarith
  · have hr := nint_range p 0 100 (by push_cast; linarith) (by push_cast; linarith)
    have hn := nint_near p
    have henc : encodeOld R 3 p = 1200 - nint p := by
      unfold encodeOld
      have e : invalidKind 3 = false := by decide
      rw [e]
      simp only [Bool.false_eq_true, if_false]
      rw [if_neg (by omega), if_neg (by omega), if_neg (by omega), if_neg (by omega), if_pos trivial, if_pos hr]
    have hdec : decode R (1200 - nint p) = (3, (nint p : ℚ)) := by
      unfold decode
      rw [if_neg (by omega), if_neg (by omega), if_neg (by omega), if_neg (by omega), if_neg (by omega), if_neg (by omega),
        if_neg (by omega), if_neg (by omega), if_pos (by omega), r4_int hR _ (by rw [abs_lt]; constructor <;> omega)]
      push_cast
      rw [show (1200 : ℚ) - (1200 - nint p) = nint p by ring, r4_int hR _ (by rw [abs_lt]; constructor <;> omega)]
    refine ⟨_, by rw [henc, hdec]; rfl, ?_⟩
    rw [abs_le]
    constructor <;> linarith [hn.1, hn.2]

/-! ### Where the claim fails -/

/-- 1099.75 mb comes back as the arbitrary code 100. -/
theorem C55_high_witness {R : Rounding} (hR : Good R) : decode R (encodeOld R 2 (4399 / 4)) = (3, 100) := by
  obtain ⟨⟨a1, a2⟩, -⟩ := limits hR
  rw [encode_pressure R _ (by norm_num) (by norm_num), if_pos (by linarith)]
  have hn : nint (4399 / 4) = 1100 := by unfold nint; norm_num
  rw [hn]
  unfold decode
  norm_num
  have h1 : R.r4 1100 = 1100 := by simpa using r4_int hR 1100 (by norm_num)
  have h2 : R.r4 100 = 100 := by simpa using r4_int hR 100 (by norm_num)
  rw [h1]
  norm_num
  exact h2

/-- 9.98 mb comes back as the top of the atmosphere in sigma coordinates. -/
theorem C55_ten_witness {R : Rounding} (hR : Good R) : decode R (encodeOld R 2 (2555 / 256)) = (1, 0) := by
  obtain ⟨⟨a1, a2⟩, ⟨b1, b2⟩, -⟩ := limits hR
  rw [encode_pressure R _ (by norm_num) (by norm_num), if_neg (by linarith), if_pos (by linarith)]
  have hr := r4_bound hR (20 * (2555 / 256)) (by norm_num)
  have hn : nint (R.r4 (20 * (2555 / 256))) = 200 := nint_eq _ _ (by push_cast; linarith [hr.1]) (by push_cast; linarith [hr.2])
  rw [hn]
  unfold decode
  norm_num
  rw [r4_zero hR, zero_div, r4_zero hR]

/-- 0.998 mb comes back as 0 mb. -/
theorem C55_one_witness {R : Rounding} (hR : Good R) : decode R (encodeOld R 2 (511 / 512)) = (2, 0) := by
  obtain ⟨⟨a1, a2⟩, ⟨b1, b2⟩, ⟨c1, c2⟩, -⟩ := limits hR
  rw [encode_pressure R _ (by norm_num) (by norm_num), if_neg (by linarith), if_neg (by linarith), if_pos (by linarith)]
  have hr := r4_bound hR (200 * (511 / 512)) (by norm_num)
  have hn : nint (R.r4 (200 * (511 / 512))) = 200 := nint_eq _ _ (by push_cast; linarith [hr.1]) (by push_cast; linarith [hr.2])
  rw [hn]
  unfold decode
  norm_num
  rw [r4_zero hR, zero_div]
  have : R.r8 0 = 0 := by simpa using hR.i8 0 (by norm_num)
  rw [this, r4_zero hR]

/-! ### Examples -/

example : Old 2 850 (1 / 2) ∧ Old 2 (17 / 4) (251 / 10 ^ 4) ∧ Old 1 (1 / 2) (51 / 10 ^ 6) ∧ Old 0 1503 (252 / 100) ∧ Old 3 7 (1 / 2) := by
  unfold Old
  norm_num

example : encodeOld ⟨id, id⟩ 2 (17 / 4) = 1885 ∧ decode ⟨id, id⟩ 1885 = (2, 17 / 4) ∧ encodeOld ⟨id, id⟩ 0 1503 = 12302 ∧
    decode ⟨id, id⟩ 12302 = (0, 1505) ∧ encodeOld ⟨id, id⟩ 3 7 = 1193 ∧ decode ⟨id, id⟩ 1193 = (3, 7) ∧
    encodeOld ⟨id, id⟩ 1 (1 / 2) = 7000 ∧ decode ⟨id, id⟩ 7000 = (1, 1 / 2) := by decide +kernel

end Props.ConvipOld
