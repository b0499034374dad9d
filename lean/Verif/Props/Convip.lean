import Verif.Convip
import Verif.Props.Grid

/-!
C48, C55: encoded levels decode to the same level.
-/
namespace Props.Convip
open Verif.Convip Verif.Grid Props.Grid

/-- What is known of the roundings: nearest single precision numbers, relative errors, monotone, exact integers.
Overflow and underflow do not occur: all intermediate values are zero or from 1e-45 to 1e11 in size. -/
structure Good (R : Rounding) : Prop where
  near4 : Nearest R
  e4 : ∀ x, |R.r4 x - x| ≤ |x| / 2 ^ 24
  e8 : ∀ x, |R.r8 x - x| ≤ |x| / 2 ^ 53
  m8 : ∀ x y, x ≤ y → R.r8 x ≤ R.r8 y
  i8 : ∀ n : Int, |n| ≤ 2 ^ 53 → R.r8 n = n
  s8 : ∀ m e : Int, |m| < 2 ^ 53 → R.r8 (m * 2 ^ e) = m * 2 ^ e

theorem nearest_mono (p : Nat) (hp : 1 ≤ p) (x y : ℚ) (h : x ≤ y) : nearest p x ≤ nearest p y := by
  by_contra hc
  rw [not_le] at hc
  obtain ⟨m, e, hm, ha⟩ := nearest_form p hp x
  obtain ⟨n, f, hn, hb⟩ := nearest_form p hp y
  have h1 := nearest_best p hp x n f hn
  have h2 := nearest_best p hp y m e hm
  rw [← hb] at h1
  rw [← ha] at h2
  have hx : nearest p x + nearest p y ≤ 2 * x := by
    rcases abs_cases (nearest p x - x) with ⟨e1, _⟩ | ⟨e1, _⟩ <;> rcases abs_cases (nearest p y - x) with ⟨e2, _⟩ | ⟨e2, _⟩ <;>
      linarith
  have hy : 2 * y ≤ nearest p x + nearest p y := by
    rcases abs_cases (nearest p x - y) with ⟨e1, _⟩ | ⟨e1, _⟩ <;> rcases abs_cases (nearest p y - y) with ⟨e2, _⟩ | ⟨e2, _⟩ <;>
      linarith
  have : x = y := by linarith
  rw [this] at hc
  exact lt_irrefl _ hc

/-- Rounding to nearest meets all of it. -/
theorem good_nearest : Good ⟨nearest 24, nearest 53⟩ :=
  ⟨Props.Grid.good_nearest.2, nearest_err 24 (by norm_num), nearest_err 53 (by norm_num),
    nearest_mono 53 (by norm_num), fun n h => nearest_int 53 (by norm_num) n h, fun m e hm => by
      have := nearest_best 53 (by norm_num) ((m : ℚ) * 2 ^ e) m e hm
      rw [sub_self, abs_zero] at this
      exact sub_eq_zero.1 (abs_eq_zero.1 (le_antisymm this (abs_nonneg _)))⟩

/-- A value close to a single precision number is rounded to it. -/
theorem near_single {R : Rounding} (hN : Nearest R) (x y : ℚ) (hx : Single x) (h : |y - x| ≤ |x| / 2 ^ 27) : R.r4 y = x := by
  obtain ⟨⟨n, f, hn, hz⟩, hbest⟩ := hN y
  have h1 := hbest x hx
  rw [abs_sub_comm x] at h1
  have h2 := abs_sub_le (R.r4 y) y x
  have h3 : |R.r4 y - x| ≤ |x| / 2 ^ 26 := by
    have : |x| / 2 ^ 27 + |x| / 2 ^ 27 = |x| / 2 ^ 26 := by ring
    linarith
  obtain ⟨m, e, hm, he⟩ := hx
  by_contra hne
  have hm' : |(m : ℚ)| < 2 ^ 24 := by exact_mod_cast hm
  have hn' : |(n : ℚ)| < 2 ^ 24 := by exact_mod_cast hn
  have key : ∀ (a b : ℚ) (m n : Int) (e f : Int), a = m * 2 ^ e → b = n * 2 ^ f → e ≤ f → a ≠ b → |(m : ℚ)| < 2 ^ 24 →
      |a| < 2 ^ 24 * |b - a| := by
    intro a b m n e f ha hb hef hab hm
    obtain ⟨k, hk⟩ : ∃ k : Nat, f = e + k := ⟨(f - e).toNat, by omega⟩
    have hp : (0 : ℚ) < 2 ^ e := zpow_pos (by norm_num) e
    have hd : b - a = ((n * 2 ^ k - m : Int) : ℚ) * 2 ^ e := by
      rw [ha, hb, hk, zpow_add₀ (by norm_num), zpow_natCast]
      push_cast
      ring
    have hnz : (n * 2 ^ k - m : Int) ≠ 0 := by
      intro h0
      rw [h0] at hd
      apply hab
      simp at hd
      linarith
    have h1 : (1 : ℚ) ≤ |((n * 2 ^ k - m : Int) : ℚ)| := by
      rw [← Int.cast_abs]
      exact_mod_cast Int.one_le_abs hnz
    rw [hd, abs_mul, abs_of_pos hp, ha, abs_mul, abs_of_pos hp]
    calc |(m : ℚ)| * 2 ^ e < 2 ^ 24 * 2 ^ e := mul_lt_mul_of_pos_right hm hp
      _ = 2 ^ 24 * (1 * 2 ^ e) := by ring
      _ ≤ _ := by
        apply mul_le_mul_of_nonneg_left _ (by norm_num)
        exact mul_le_mul_of_nonneg_right h1 (le_of_lt hp)
  have hx0 : 0 ≤ |x| := abs_nonneg x
  rcases le_total e f with hef | hef
  · have := key x (R.r4 y) m n e f he hz hef (Ne.symm hne) hm'
    linarith
  · have := key (R.r4 y) x n m f e hz he hef hne hn'
    rw [abs_sub_comm] at this
    have h4 := abs_sub_abs_le_abs_sub x (R.r4 y)
    rw [abs_sub_comm x] at h4
    linarith

theorem r4_single {R : Rounding} (hR : Good R) (x : ℚ) (hx : Single x) : R.r4 x = x :=
  near_single hR.near4 x x hx (by simp; positivity)

theorem r4_zero {R : Rounding} (hR : Good R) : R.r4 0 = 0 := r4_single hR 0 ⟨0, 0, by norm_num, by norm_num⟩

theorem r4_bound {R : Rounding} (hR : Good R) (x : ℚ) (h : 0 ≤ x) :
    x * (1 - 6 / 10 ^ 8) ≤ R.r4 x ∧ R.r4 x ≤ x * (1 + 6 / 10 ^ 8) := by
  have h1 := hR.e4 x
  rw [abs_of_nonneg h, abs_le] at h1
  have : x / 2 ^ 24 ≤ x * (6 / 10 ^ 8) := by
    rw [div_eq_mul_one_div]
    exact mul_le_mul_of_nonneg_left (by norm_num) h
  constructor <;> linarith [h1.1, h1.2]

theorem r8_bound {R : Rounding} (hR : Good R) (x : ℚ) (h : 0 ≤ x) :
    x * (1 - 1 / 2 ^ 53) ≤ R.r8 x ∧ R.r8 x ≤ x * (1 + 1 / 2 ^ 53) := by
  have h1 := hR.e8 x
  rw [abs_of_nonneg h, abs_le] at h1
  constructor <;> linarith [h1.1, h1.2]

/-! ### The loop -/

/-- Power of ten of a pseudo exponent. -/
def P (k : Nat) : ℚ := 10 ^ k / 10 ^ 4

theorem P_pos (k : Nat) : 0 < P k := by unfold P; positivity

theorem P_succ (k : Nat) : P (k + 1) = 10 * P k := by unfold P; rw [pow_succ]; ring

/-- `T` is `X` with at most `n` roundings. -/
def Appr (n : Nat) (T X : ℚ) : Prop := |T - X| ≤ n * (X / 2 ^ 52)

theorem appr_up {R : Rounding} (hR : Good R) (n : Nat) (hn : n ≤ 100) (T X : ℚ) (hX : 0 ≤ X) (hT : 0 ≤ T) (h : Appr n T X) :
    Appr (n + 1) (R.r8 (T * 10)) (10 * X) := by
  unfold Appr at h ⊢
  have h1 := r8_bound hR (T * 10) (by linarith)
  rw [abs_le] at h ⊢
  have hn' : (n : ℚ) ≤ 100 := by exact_mod_cast hn
  have hb : (n : ℚ) * (X / 2 ^ 52) ≤ X := by
    have : (n : ℚ) * (X / 2 ^ 52) ≤ 100 * (X / 2 ^ 52) := mul_le_mul_of_nonneg_right hn' (by positivity)
    linarith
  have e : ((n + 1 : Nat) : ℚ) * (10 * X / 2 ^ 52) = 10 * (n * (X / 2 ^ 52)) + 10 * (X / 2 ^ 52) := by push_cast; ring
  rw [e]
  constructor <;> linarith [h.1, h.2, h1.1, h1.2]

theorem appr_down {R : Rounding} (hR : Good R) (n : Nat) (hn : n ≤ 100) (T X : ℚ) (hX : 0 ≤ X) (hT : 0 ≤ T) (h : Appr n T (10 * X)) :
    Appr (n + 1) (R.r8 (T / 10)) X := by
  unfold Appr at h ⊢
  have h1 := r8_bound hR (T / 10) (by linarith)
  rw [abs_le] at h ⊢
  have hn' : (n : ℚ) ≤ 100 := by exact_mod_cast hn
  have hb : (n : ℚ) * (X / 2 ^ 52) ≤ X := by
    have : (n : ℚ) * (X / 2 ^ 52) ≤ 100 * (X / 2 ^ 52) := mul_le_mul_of_nonneg_right hn' (by positivity)
    linarith
  have e : ((n + 1 : Nat) : ℚ) * (X / 2 ^ 52) = n * (X / 2 ^ 52) + X / 2 ^ 52 := by push_cast; ring
  have e' : (n : ℚ) * (10 * X / 2 ^ 52) = 10 * (n * (X / 2 ^ 52)) := by ring
  rw [e' ] at h
  rw [e]
  constructor <;> linarith [h.1, h.2, h1.1, h1.2]

theorem appr_weaken (n m : Nat) (T X : ℚ) (hX : 0 ≤ X) (hnm : n ≤ m) (h : Appr n T X) : Appr m T X := by
  unfold Appr at *
  have : (n : ℚ) ≤ m := by exact_mod_cast hnm
  have := mul_le_mul_of_nonneg_right this (show 0 ≤ X / 2 ^ 52 by positivity)
  linarith

/-- How the loop ends. -/
structure Ended (L2 : Int) (t T : ℚ) (k : Nat) : Prop where
  hk : k ≤ 15
  pos : 0 ≤ T
  top : T ≤ 10 * L2
  appr : Appr 20 T (t * P k)
  low : (L2 : ℚ) ≤ T ∨ k = 15
  big : k < 4 → 10 * L2 ≤ t

theorem scale_stop (R : Rounding) (l1 l2 : ℚ) (fuel : Nat) (T : ℚ) (k : Nat) (h : ¬ (0 < k ∧ k < 15)) :
    scale R l1 l2 (fuel + 1) T k = some (T, k) := by
  simp only [scale]
  rw [if_neg h]

theorem scale_in (R : Rounding) (l1 l2 : ℚ) (fuel : Nat) (T : ℚ) (k : Nat) (h1 : T < l1) (h2 : l2 ≤ T) :
    scale R l1 l2 (fuel + 1) T k = some (T, k) := by
  simp only [scale]
  split
  · rw [if_neg (by linarith), if_neg (by linarith)]
  · rfl

theorem scale_up (R : Rounding) (l1 l2 : ℚ) (fuel : Nat) (T : ℚ) (k : Nat) (h0 : 0 < k) (h15 : k < 15) (h1 : T < l1)
    (h2 : T < l2) : scale R l1 l2 (fuel + 1) T k = scale R l1 l2 fuel (R.r8 (T * 10)) (k + 1) := by
  conv_lhs => unfold scale
  rw [if_pos ⟨h0, h15⟩, if_neg (by linarith), if_pos h2]

theorem scale_down (R : Rounding) (l1 l2 : ℚ) (fuel : Nat) (T : ℚ) (k : Nat) (h0 : 0 < k) (h15 : k < 15) (h1 : l1 ≤ T) :
    scale R l1 l2 (fuel + 1) T k = scale R l1 l2 fuel (R.r8 (T / 10)) (k - 1) := by
  conv_lhs => unfold scale
  rw [if_pos ⟨h0, h15⟩, if_pos h1]

theorem loop_up {R : Rounding} (hR : Good R) (L2 : Int) (hL : 1 ≤ L2) (hL' : L2 ≤ 100000) (t : ℚ) (ht : 0 ≤ t) :
    ∀ j fuel (T : ℚ) k, k + j = 15 → 4 ≤ k → j + 3 ≤ fuel → 0 ≤ T → T < 10 * L2 → Appr (k - 4) T (t * P k) →
      ∃ T' k', scale R (10 * L2) L2 fuel T k = some (T', k') ∧ Ended L2 t T' k' := by
  have hLq : (1 : ℚ) ≤ L2 := by exact_mod_cast hL
  intro j
  induction j with
  | zero =>
    intro fuel T k hk h4 hf hT hT' ha
    obtain ⟨f, rfl⟩ : ∃ f, fuel = f + 1 := ⟨fuel - 1, by omega⟩
    refine ⟨T, k, scale_stop R _ _ f T k (by omega), ⟨by omega, hT, by linarith, ?_, Or.inr (by omega), by omega⟩⟩
    exact appr_weaken _ _ _ _ (mul_nonneg ht (le_of_lt (P_pos k))) (by omega) ha
  | succ j ih =>
    intro fuel T k hk h4 hf hT hT' ha
    obtain ⟨f, rfl⟩ : ∃ f, fuel = f + 1 := ⟨fuel - 1, by omega⟩
    have hX : 0 ≤ t * P k := mul_nonneg ht (le_of_lt (P_pos k))
    by_cases h2 : (L2 : ℚ) ≤ T
    · refine ⟨T, k, scale_in R _ _ f T k hT' h2, ⟨by omega, hT, by linarith, ?_, Or.inl h2, by omega⟩⟩
      exact appr_weaken _ _ _ _ hX (by omega) ha
    rw [not_le] at h2
    rw [scale_up R _ _ f T k (by omega) (by omega) hT' h2]
    have ha' := appr_up hR (k - 4) (by omega) T _ hX hT ha
    have hpos : 0 ≤ R.r8 (T * 10) := by
      have := hR.m8 0 (T * 10) (by linarith)
      have h0 : R.r8 0 = 0 := by simpa using hR.i8 0 (by norm_num)
      rw [h0] at this
      exact this
    have eX : 10 * (t * P k) = t * P (k + 1) := by rw [P_succ]; ring
    rw [eX, show k - 4 + 1 = k + 1 - 4 by omega] at ha'
    have hle : R.r8 (T * 10) ≤ 10 * L2 := by
      have := hR.m8 (T * 10) ((10 * L2 : Int) : ℚ) (by push_cast; linarith)
      rw [hR.i8 (10 * L2) (by rw [abs_le]; constructor <;> omega)] at this
      push_cast at this
      exact this
    rcases lt_or_eq_of_le hle with hlt | heq
    · exact ih f (R.r8 (T * 10)) (k + 1) (by omega) (by omega) (by omega) hpos hlt ha'
    · rw [heq] at ha' ⊢
      obtain ⟨f', rfl⟩ : ∃ f', f = f' + 1 := ⟨f - 1, by omega⟩
      by_cases h15 : k + 1 = 15
      · refine ⟨10 * L2, k + 1, scale_stop R _ _ f' _ _ (by omega), ⟨by omega, by linarith, le_refl _, ?_, Or.inr h15, by omega⟩⟩
        exact appr_weaken _ _ _ _ (mul_nonneg ht (le_of_lt (P_pos _))) (by omega) ha'
      · rw [scale_down R _ _ f' _ _ (by omega) (by omega) (le_refl _)]
        have e1 : R.r8 (10 * (L2 : ℚ) / 10) = L2 := by
          rw [mul_div_cancel_left₀ _ (by norm_num : (10 : ℚ) ≠ 0)]
          exact hR.i8 L2 (by rw [abs_le]; constructor <;> omega)
        have ha2 := appr_down hR (k + 1 - 4) (by omega) (10 * (L2 : ℚ)) (t * P k) hX (by linarith) (by
          rw [eX]; exact ha')
        rw [e1] at ha2 ⊢
        obtain ⟨f'', rfl⟩ : ∃ f'', f' = f'' + 1 := ⟨f' - 1, by omega⟩
        rw [Nat.add_sub_cancel]
        refine ⟨L2, k, scale_in R _ _ f'' _ k (by linarith) (le_refl _), ⟨by omega, by linarith, by linarith, ?_,
          Or.inl (le_refl _), by omega⟩⟩
        exact appr_weaken _ _ _ _ hX (by omega) ha2

theorem loop_down {R : Rounding} (hR : Good R) (L2 : Int) (hL : 1 ≤ L2) (hL' : L2 ≤ 100000) (t : ℚ) (ht : 10 * L2 ≤ t) :
    ∀ k fuel (T : ℚ), k ≤ 4 → k + 2 ≤ fuel → 10 * L2 ≤ T → T ≤ 10 * L2 * 10 ^ k → Appr (4 - k) T (t * P k) →
      ∃ T' k', scale R (10 * L2) L2 fuel T k = some (T', k') ∧ Ended L2 t T' k' := by
  have hLq : (1 : ℚ) ≤ L2 := by exact_mod_cast hL
  intro k
  induction k with
  | zero =>
    intro fuel T h4 hf hT hT' ha
    obtain ⟨f, rfl⟩ : ∃ f, fuel = f + 1 := ⟨fuel - 1, by omega⟩
    refine ⟨T, 0, scale_stop R _ _ f T 0 (by omega), ⟨by omega, by linarith, by simpa using hT', ?_, Or.inl (by linarith), fun _ => ht⟩⟩
    exact appr_weaken _ _ _ _ (mul_nonneg (by linarith) (le_of_lt (P_pos 0))) (by omega) ha
  | succ k ih =>
    intro fuel T h4 hf hT hT' ha
    obtain ⟨f, rfl⟩ : ∃ f, fuel = f + 1 := ⟨fuel - 1, by omega⟩
    rw [scale_down R _ _ f T _ (by omega) (by omega) hT, Nat.add_sub_cancel]
    have hX : 0 ≤ t * P k := mul_nonneg (by linarith) (le_of_lt (P_pos k))
    have ha' := appr_down hR (4 - (k + 1)) (by omega) T (t * P k) hX (by linarith) (by
      rw [show 10 * (t * P k) = t * P (k + 1) by rw [P_succ]; ring]; exact ha)
    rw [show 4 - (k + 1) + 1 = 4 - k by omega] at ha'
    have hge : (L2 : ℚ) ≤ R.r8 (T / 10) := by
      have := hR.m8 (L2 : ℚ) (T / 10) (by linarith)
      rw [hR.i8 L2 (by rw [abs_le]; constructor <;> omega)] at this
      exact this
    have hle : R.r8 (T / 10) ≤ 10 * L2 * 10 ^ k := by
      have hint : |10 * L2 * 10 ^ k| ≤ (2 : Int) ^ 53 := by
        rw [abs_of_nonneg (by positivity)]
        have : (10 : Int) ^ k ≤ 10 ^ 4 := pow_le_pow_right₀ (by norm_num) (by omega)
        calc 10 * L2 * 10 ^ k ≤ 10 * 100000 * 10 ^ 4 := by
              apply mul_le_mul (by omega) this (by positivity) (by norm_num)
          _ ≤ 2 ^ 53 := by norm_num
      have := hR.m8 (T / 10) ((10 * L2 * 10 ^ k : Int) : ℚ) (by
        push_cast
        rw [pow_succ] at hT'
        linarith)
      rw [hR.i8 _ hint] at this
      push_cast at this
      exact this
    by_cases hlt : R.r8 (T / 10) < 10 * L2
    · obtain ⟨f', rfl⟩ : ∃ f', f = f' + 1 := ⟨f - 1, by omega⟩
      refine ⟨_, k, scale_in R _ _ f' _ k hlt hge, ⟨by omega, by linarith, by linarith, ?_, Or.inl hge, fun _ => ht⟩⟩
      exact appr_weaken _ _ _ _ hX (by omega) ha'
    · rw [not_lt] at hlt
      exact ih f _ (by omega) (by omega) hlt hle ha'

/-- The loop ends for all numbers that can be coded. -/
theorem loop_end {R : Rounding} (hR : Good R) (L2 : Int) (hL : 1 ≤ L2) (hL' : L2 ≤ 100000) (t : ℚ) (ht : 0 ≤ t)
    (ht' : t ≤ 10 * L2 * 10 ^ 4) (fuel : Nat) :
    ∃ T k, scale R (10 * L2) L2 (fuel + 14) t 4 = some (T, k) ∧ Ended L2 t T k := by
  have h0 : Appr 0 t (t * P 4) := by
    unfold Appr P
    norm_num
  by_cases h : t < 10 * L2
  · exact loop_up hR L2 hL hL' t ht 11 (fuel + 14) t 4 rfl (le_refl _) (by omega) ht h h0
  · rw [not_lt] at h
    exact loop_down hR L2 hL hL' t h 4 (fuel + 14) t (le_refl _) (by omega) h ht' h0

/-! ### The pseudo mantissa -/

theorem r4_le {R : Rounding} (hR : Good R) (B y : ℚ) (hB : Single B) (h : y ≤ B + |B| / 2 ^ 27) : R.r4 y ≤ B := by
  by_cases hy : y ≤ B
  · have := (hR.near4 y).2 B hB
    by_contra hc
    rw [not_le] at hc
    rw [abs_of_nonneg (by linarith), abs_of_nonneg (by linarith)] at this
    linarith
  · rw [not_le] at hy
    rw [near_single hR.near4 B y hB (by rw [abs_of_nonneg (by linarith)]; linarith)]

theorem r4_ge {R : Rounding} (hR : Good R) (B y : ℚ) (hB : Single B) (h : B - |B| / 2 ^ 27 ≤ y) : B ≤ R.r4 y := by
  by_cases hy : B ≤ y
  · have := (hR.near4 y).2 B hB
    by_contra hc
    rw [not_le] at hc
    rw [abs_of_nonpos (by linarith), abs_of_nonpos (by linarith)] at this
    linarith
  · rw [not_le] at hy
    rw [near_single hR.near4 B y hB (by rw [abs_of_nonpos (by linarith)]; linarith)]

theorem single_neg (x : ℚ) (h : Single x) : Single (-x) := by
  obtain ⟨m, e, hm, hx⟩ := h
  exact ⟨-m, e, by rwa [abs_neg], by rw [hx]; push_cast; ring⟩

theorem single_int (n : Int) (h : |n| < 2 ^ 24) : Single n := ⟨n, 0, h, by simp⟩

theorem ended_err {L2 : Int} {t T : ℚ} {k : Nat} (hL : 1 ≤ L2) (hL' : L2 ≤ 100000) (ht : 0 ≤ t) (h : Ended L2 t T k) :
    |T - t * P k| ≤ 1 / 10 ^ 8 := by
  have ha := h.appr
  unfold Appr at ha
  have hX : 0 ≤ t * P k := mul_nonneg ht (le_of_lt (P_pos k))
  have hLq : (L2 : ℚ) ≤ 100000 := by exact_mod_cast hL'
  have := h.top
  generalize t * P k = y at *
  rw [abs_le] at ha ⊢
  push_cast at ha
  constructor <;> linarith [ha.1, ha.2]

theorem mant_range {L2 : Int} {t T : ℚ} {k : Nat} (h : Ended L2 t T k) : 0 ≤ nint T ∧ nint T ≤ 10 * L2 :=
  nint_range T 0 (10 * L2) (by have := h.pos; push_cast; linarith) (by have := h.top; push_cast; linarith)

/-- The pseudo mantissa is the value in its units, within half a unit. -/
theorem mant_err {L2 : Int} {t T : ℚ} {k : Nat} (hL : 1 ≤ L2) (hL' : L2 ≤ 100000) (ht : 0 ≤ t) (h : Ended L2 t T k) :
    |(nint T : ℚ) - t * P k| ≤ 1 / 2 + 1 / 10 ^ 8 := by
  have h1 := ended_err hL hL' ht h
  have h2 := nint_near T
  rw [abs_le] at h1 ⊢
  constructor <;> linarith [h1.1, h1.2, h2.1, h2.2]

theorem mant_unit {L2 : Int} {t T : ℚ} {k : Nat} (hL : 1 ≤ L2) (hL' : L2 ≤ 100000) (ht : 0 ≤ t) (h : Ended L2 t T k) :
    |(nint T : ℚ) / P k - t| ≤ (1 / 2 + 1 / 10 ^ 8) * (10 ^ 4 / 10 ^ k) := by
  have h1 := mant_err hL hL' ht h
  have hP := P_pos k
  have e : (nint T : ℚ) / P k - t = (nint T - t * P k) / P k := by field_simp
  have e2 : (10 : ℚ) ^ 4 / 10 ^ k = 1 / P k := by unfold P; rw [one_div_div]
  rw [e, abs_div, abs_of_pos hP, e2, mul_one_div]
  exact div_le_div_of_nonneg_right h1 (le_of_lt hP)

/-- In terms of the value. -/
theorem mant_value {L2 : Int} {t T : ℚ} {k : Nat} (hL : 4800 ≤ L2) (hL' : L2 ≤ 100000) (ht : 0 ≤ t) (h : Ended L2 t T k) :
    |(nint T : ℚ) / P k - t| ≤ t * (501 / 1000 / L2) + 6 / 10 ^ 12 := by
  have h1 := mant_err (by omega) hL' ht h
  have h2 := ended_err (by omega) hL' ht h
  have hP := P_pos k
  have hLq : (4800 : ℚ) ≤ L2 := by exact_mod_cast hL
  have e : (nint T : ℚ) / P k - t = (nint T - t * P k) / P k := by field_simp
  rw [e, abs_div, abs_of_pos hP, div_le_iff₀ hP]
  rcases h.low with hl | hk
  · have h3 : (501 / 1000 : ℚ) / L2 * (L2 : ℚ) = 501 / 1000 := by field_simp
    have h4 : (501 / 1000 : ℚ) / L2 * (L2 - 1 / 10 ^ 8) ≤ (501 / 1000) / L2 * (t * P k) := by
      apply mul_le_mul_of_nonneg_left _ (by positivity)
      rw [abs_le] at h2
      linarith [h2.1, h2.2]
    have h5 : (501 / 1000 : ℚ) / L2 ≤ 501 / 1000 / 4800 := by
      apply div_le_div_of_nonneg_left (by norm_num) (by norm_num) hLq
    have h6 : 0 ≤ 6 / 10 ^ 12 * P k := by positivity
    calc |(nint T : ℚ) - t * P k| ≤ 1 / 2 + 1 / 10 ^ 8 := h1
      _ ≤ 501 / 1000 / L2 * (t * P k) := by
        rw [mul_sub, h3] at h4
        linarith
      _ ≤ (t * (501 / 1000 / L2) + 6 / 10 ^ 12) * P k := by
        rw [add_mul]
        have : t * (501 / 1000 / (L2 : ℚ)) * P k = 501 / 1000 / L2 * (t * P k) := by ring
        rw [this]
        linarith
  · have : P k = 10 ^ 11 := by rw [hk]; unfold P; norm_num
    rw [this] at h1 ⊢
    have h7 : 0 ≤ t * (501 / 1000 / (L2 : ℚ)) := by positivity
    have h8 : 6 / 10 ^ 12 * (10 : ℚ) ^ 11 ≤ (t * (501 / 1000 / L2) + 6 / 10 ^ 12) * 10 ^ 11 := by
      apply mul_le_mul_of_nonneg_right _ (by norm_num)
      linarith
    refine le_trans h1 (le_trans ?_ h8)
    norm_num

theorem P_int (k : Nat) (h : 4 ≤ k) : P k = ((10 ^ (k - 4) : Int) : ℚ) := by
  obtain ⟨j, rfl⟩ : ∃ j, k = j + 4 := ⟨k - 4, by omega⟩
  unfold P
  rw [pow_add, Nat.add_sub_cancel]
  push_cast
  rw [mul_div_assoc, div_self (by norm_num), mul_one]

/-- Upper limits of values are kept. -/
theorem mant_le {L2 : Int} {t T : ℚ} {k : Nat} (hL : 1 ≤ L2) (hL' : L2 ≤ 100000) (ht : 0 ≤ t) (h : Ended L2 t T k) (B : Int)
    (hB : t ≤ B) (hB' : B < 10 * L2 ∨ 10 * L2 * 10 ^ 4 ≤ B) : (nint T : ℚ) / P k ≤ B := by
  have hP := P_pos k
  rw [div_le_iff₀ hP]
  by_cases hk : k < 4
  · have := h.big hk
    rcases hB' with hb | hb
    · have hq : (B : ℚ) < 10 * L2 := by exact_mod_cast hb
      linarith
    · have hm := (mant_range h).2
      have hmq : (nint T : ℚ) ≤ 10 * L2 := by exact_mod_cast hm
      have hbq : (10 : ℚ) * L2 * 10 ^ 4 ≤ B := by exact_mod_cast hb
      have hP1 : 1 / 10 ^ 4 ≤ P k := by
        unfold P
        apply div_le_div_of_nonneg_right _ (by norm_num)
        exact one_le_pow₀ (by norm_num)
      have hLq : (1 : ℚ) ≤ L2 := by exact_mod_cast hL
      calc (nint T : ℚ) ≤ 10 * L2 := hmq
        _ = (10 * L2 * 10 ^ 4) * (1 / 10 ^ 4) := by ring
        _ ≤ B * P k := by
          apply mul_le_mul hbq hP1 (by norm_num)
          linarith
  · rw [P_int k (by omega)]
    have h2 := ended_err hL hL' ht h
    rw [P_int k (by omega), abs_le] at h2
    have h3 : T < ((B * 10 ^ (k - 4) : Int) : ℚ) + 1 / 2 := by
      have : t * ((10 ^ (k - 4) : Int) : ℚ) ≤ B * ((10 ^ (k - 4) : Int) : ℚ) :=
        mul_le_mul_of_nonneg_right hB (by positivity)
      push_cast at *
      linarith [h2.2]
    have := (nint_range T 0 (B * 10 ^ (k - 4)) (by have := h.pos; push_cast; linarith) h3).2
    exact_mod_cast this

/-- Values from one on are coded as values from one on. -/
theorem mant_ge {L2 : Int} {t T : ℚ} {k : Nat} (hL : 1 ≤ L2) (hL' : L2 ≤ 100000) (ht : 1 ≤ t) (h : Ended L2 t T k) :
    1 ≤ (nint T : ℚ) / P k := by
  have hP := P_pos k
  rw [le_div_iff₀ hP, one_mul]
  have h2 := ended_err hL hL' (by linarith) h
  have h3 := nint_near T
  rw [abs_le] at h2
  by_cases hk : k < 4
  · have hl : (L2 : ℚ) ≤ T := by
      rcases h.low with h' | h'
      · exact h'
      · omega
    have hLq : (1 : ℚ) ≤ L2 := by exact_mod_cast hL
    have : P k ≤ 1 / 10 := by
      unfold P
      rw [div_le_iff₀ (by norm_num)]
      have : (10 : ℚ) ^ k ≤ 10 ^ 3 := pow_le_pow_right₀ (by norm_num) (by omega)
      linarith
    linarith [h3.1]
  · rw [P_int k (by omega)] at h2 ⊢
    have h4 : ((10 ^ (k - 4) : Int) : ℚ) ≤ t * ((10 ^ (k - 4) : Int) : ℚ) := by
      have : (0 : ℚ) ≤ ((10 ^ (k - 4) : Int) : ℚ) := by positivity
      exact le_mul_of_one_le_left this ht
    have := (nint_range T (10 ^ (k - 4)) (10 * L2) (by linarith [h2.1]) (by have := h.top; push_cast; linarith)).1
    exact_mod_cast this

/-! ### Decoding -/

theorem exptab_near {R : Rounding} (hR : Good R) (k : Nat) (hk : k ≤ 15) :
    0 < exptab R k ∧ |exptab R k - P k| ≤ P k * (6 / 10 ^ 8) ∧ (k < 15 → |exptab R k - P k| ≤ P k / 2 ^ 53) := by
  have hP := P_pos k
  have key : |exptab R k - P k| ≤ P k * (6 / 10 ^ 8) ∧ (k < 15 → |exptab R k - P k| ≤ P k / 2 ^ 53) := by
    unfold exptab
    split
    · have := hR.e8 (P k)
      rw [abs_of_pos hP] at this
      refine ⟨?_, fun _ => this⟩
      unfold P at this ⊢
      refine le_trans this ?_
      rw [div_eq_mul_one_div]
      exact mul_le_mul_of_nonneg_left (by norm_num) (by positivity)
    · split
      · rename_i h
        refine ⟨?_, fun h' => by omega⟩
        have e : P k = 10 ^ 11 := by rw [h]; unfold P; norm_num
        rw [e]
        refine le_trans (hR.e4 _) ?_
        norm_num [abs_of_pos]
      · rw [P_int k (by omega)]
        push_cast
        rw [sub_self, abs_zero]
        exact ⟨by positivity, fun _ => by positivity⟩
  refine ⟨?_, key⟩
  have := (abs_le.1 key.1).1
  have h1 : P k * (6 / 10 ^ 8) < P k := by linarith
  linarith

/-- Division by the table of powers of ten. -/
theorem quot_near {R : Rounding} (hR : Good R) (m : ℚ) (k : Nat) (hk : k ≤ 15) :
    |R.r8 (m / exptab R k) - m / P k| ≤ |m / P k| * (61 / 10 ^ 9) ∧
      (k < 15 → |R.r8 (m / exptab R k) - m / P k| ≤ |m / P k| / 2 ^ 51) := by
  obtain ⟨hpos, h1, h2⟩ := exptab_near hR k hk
  have hP := P_pos k
  have gen : ∀ d : ℚ, 0 ≤ d → d ≤ 1 / 10 ^ 6 → |exptab R k - P k| ≤ P k * d →
      |R.r8 (m / exptab R k) - m / P k| ≤ |m / P k| * (d * (1 + 2 / 10 ^ 6) + 2 / 2 ^ 53) := by
    intro d hd0 hd h
    have h3 := hR.e8 (m / exptab R k)
    have hge : P k * (1 - d) ≤ exptab R k := by
      rw [abs_le] at h
      linarith [h.1]
    have e1 : m / exptab R k - m / P k = m / P k * ((P k - exptab R k) / exptab R k) := by field_simp
    have h4 : |(P k - exptab R k) / exptab R k| ≤ d * (1 + 2 / 10 ^ 6) := by
      rw [abs_div, abs_of_pos hpos, div_le_iff₀ hpos, abs_sub_comm]
      refine le_trans h ?_
      have : d * (1 + 2 / 10 ^ 6) * (P k * (1 - d)) ≤ d * (1 + 2 / 10 ^ 6) * exptab R k :=
        mul_le_mul_of_nonneg_left hge (by positivity)
      refine le_trans ?_ this
      have h5 : (1 : ℚ) ≤ (1 + 2 / 10 ^ 6) * (1 - d) := by linarith
      have h6 : 0 ≤ P k * d := by positivity
      calc P k * d = P k * d * 1 := by ring
        _ ≤ P k * d * ((1 + 2 / 10 ^ 6) * (1 - d)) := mul_le_mul_of_nonneg_left h5 h6
        _ = _ := by ring
    have h7 : |m / exptab R k - m / P k| ≤ |m / P k| * (d * (1 + 2 / 10 ^ 6)) := by
      rw [e1, abs_mul]
      exact mul_le_mul_of_nonneg_left h4 (abs_nonneg _)
    have h8 : |m / exptab R k| ≤ |m / P k| * 2 := by
      have := abs_sub_abs_le_abs_sub (m / exptab R k) (m / P k)
      have h9 : |m / P k| * (d * (1 + 2 / 10 ^ 6)) ≤ |m / P k| * 1 := by
        apply mul_le_mul_of_nonneg_left _ (abs_nonneg _)
        linarith
      linarith
    have := abs_sub_le (R.r8 (m / exptab R k)) (m / exptab R k) (m / P k)
    rw [mul_add]
    have h10 : |m / exptab R k| / 2 ^ 53 ≤ |m / P k| * (2 / 2 ^ 53) := by linarith
    linarith
  constructor
  · refine le_trans (gen (6 / 10 ^ 8) (by norm_num) (by norm_num) h1) ?_
    apply mul_le_mul_of_nonneg_left _ (abs_nonneg _)
    norm_num
  · intro h
    refine le_trans (gen (1 / 2 ^ 53) (by norm_num) (by norm_num) (by have := h2 h; linarith)) ?_
    rw [show |m / P k| / 2 ^ 51 = |m / P k| * (1 / 2 ^ 51) by ring]
    apply mul_le_mul_of_nonneg_left _ (abs_nonneg _)
    norm_num

/-- The number that is decoded, before the factor of the kind. -/
def raw (R : Rounding) (m : ℚ) (k : Nat) : ℚ := R.r4 (R.r8 (m / exptab R k))

theorem raw_near {R : Rounding} (hR : Good R) (m : ℚ) (k : Nat) (hk : k ≤ 15) :
    |raw R m k - m / P k| ≤ |m / P k| * (13 / 10 ^ 8) := by
  have h1 := (quot_near hR m k hk).1
  unfold raw
  generalize R.r8 (m / exptab R k) = y at *
  generalize m / P k = x at *
  have h2 := hR.e4 y
  have h3 := abs_sub_le (R.r4 y) y x
  have h4 := abs_sub_abs_le_abs_sub y x
  have h5 : 0 ≤ |x| := abs_nonneg _
  linarith

theorem raw_single {R : Rounding} (hR : Good R) (m : ℚ) (k : Nat) : Single (raw R m k) := (hR.near4 _).1

/-- Limits are kept by the decoding. -/
theorem raw_abs_le {R : Rounding} (hR : Good R) (m : ℚ) (k : Nat) (hk : k ≤ 15) (B : ℚ) (hB : Single B) (hB1 : 1 ≤ B)
    (h : |m / P k| ≤ B) (hm : |m| ≤ 1000000) : |raw R m k| ≤ B := by
  by_cases h15 : k = 15
  · have h1 := raw_near hR m k hk
    have e : P k = 10 ^ 11 := by rw [h15]; unfold P; norm_num
    have h2 : |m / P k| ≤ 1 / 10 ^ 5 := by
      rw [e, abs_div, abs_of_pos (by norm_num : (0 : ℚ) < 10 ^ 11), div_le_iff₀ (by norm_num)]
      refine le_trans hm (by norm_num)
    have h3 := abs_sub_abs_le_abs_sub (raw R m k) (m / P k)
    linarith
  · have h1 := (quot_near hR m k hk).2 (by omega)
    have h3 : |m / P k| / 2 ^ 51 ≤ B / 2 ^ 51 := by
      apply div_le_div_of_nonneg_right h (by norm_num)
    have h4 : |B| = B := abs_of_nonneg (by linarith)
    rw [abs_le] at h h1 ⊢
    unfold raw
    constructor
    · apply r4_ge hR (-B) _ (single_neg B hB)
      rw [abs_neg, h4]
      linarith [h.1, h1.1]
    · apply r4_le hR B _ hB
      rw [h4]
      linarith [h.2, h1.2]

theorem raw_nonneg {R : Rounding} (hR : Good R) (m : ℚ) (k : Nat) (hk : k ≤ 15) (h : 0 ≤ m) : 0 ≤ raw R m k := by
  have h1 := raw_near hR m k hk
  have h2 : 0 ≤ m / P k := div_nonneg h (le_of_lt (P_pos k))
  rw [abs_of_nonneg h2, abs_le] at h1
  linarith [h1.1]

theorem raw_nonpos {R : Rounding} (hR : Good R) (m : ℚ) (k : Nat) (hk : k ≤ 15) (h : m ≤ 0) : raw R m k ≤ 0 := by
  have h1 := raw_near hR m k hk
  have h2 : m / P k ≤ 0 := div_nonpos_of_nonpos_of_nonneg h (le_of_lt (P_pos k))
  rw [abs_of_nonpos h2, abs_le] at h1
  linarith [h1.2]

/-- Absolute values from one on stay from one on. -/
theorem raw_one_le {R : Rounding} (hR : Good R) (m : ℚ) (k : Nat) (hk : k ≤ 15) (hm : |m| ≤ 1000000) :
    (1 ≤ m / P k → 1 ≤ raw R m k) ∧ (m / P k ≤ -1 → raw R m k ≤ -1) := by
  have h15 : 1 ≤ |m / P k| → k < 15 := by
    intro h
    by_contra hc
    have e : P k = 10 ^ 11 := by rw [show k = 15 by omega]; unfold P; norm_num
    rw [e, abs_div, abs_of_pos (by norm_num : (0 : ℚ) < 10 ^ 11), le_div_iff₀ (by norm_num)] at h
    norm_num at h
    linarith
  have s1 : Single 1 := ⟨1, 0, by norm_num, by norm_num⟩
  constructor
  · intro h
    have h1 := (quot_near hR m k hk).2 (h15 (le_trans h (le_abs_self _)))
    rw [abs_of_nonneg (by linarith : 0 ≤ m / P k), abs_le] at h1
    unfold raw
    apply r4_ge hR 1 _ s1
    rw [abs_one]
    linarith [h1.1]
  · intro h
    have h1 := (quot_near hR m k hk).2 (h15 (by rw [abs_of_nonpos (by linarith)]; linarith))
    rw [abs_of_nonpos (by linarith : m / P k ≤ 0), abs_le] at h1
    unfold raw
    apply r4_le hR (-1) _ (single_neg 1 s1)
    rw [abs_neg, abs_one]
    linarith [h1.2]

/-- The fields of a code. -/
def code (kk k : Nat) (v : Nat) : Nat := v ||| (k <<< 20) ||| (kk <<< 24)

theorem code_eq (kk k v : Nat) (hv : v < 2 ^ 20) (hk : k < 16) : code kk k v = kk * 2 ^ 24 + k * 2 ^ 20 + v := by
  unfold code
  rw [Nat.or_comm v, ← Nat.shiftLeft_add_eq_or_of_lt hv, Nat.or_comm,
    ← Nat.shiftLeft_add_eq_or_of_lt (by rw [Nat.shiftLeft_eq]; omega), Nat.shiftLeft_eq, Nat.shiftLeft_eq]
  omega

/-- The result of decoding for a kind, a pseudo mantissa with its sign and a pseudo exponent. -/
def dec (R : Rounding) (kk : Nat) (itemp : Int) (k : Nat) : Int × ℚ :=
  if !validKind kk then invalid
  else
    let p := value R kk itemp k
    if p < lowVal kk ∨ p > hiVal kk then
      if !validKind (kk + 16) then invalid
      else
        let p := value R (kk + 16) itemp k
        if p < lowVal (kk + 16) ∨ p > hiVal (kk + 16) then invalid
        else ((kk + 16 : Nat), clip R (kk + 16) p)
    else ((kk : Nat), clip R kk p)

theorem decode_code (R : Rounding) (kk k v : Nat) (hv : v < 2 ^ 20) (hk : k < 16) (hkk : kk < 15) (hb : 32767 < code kk k v) :
    decode R ((code kk k v : Nat) : Int) =
      dec R kk (if ((v : Nat) : Int) > 1000000 then -((v : Int) - 1000000) else v) k := by
  have e := code_eq kk k v hv hk
  have e1 : code kk k v / 2 ^ 24 % 16 = kk := by omega
  have e2 : code kk k v / 2 ^ 20 % 16 = k := by omega
  have e3 : code kk k v % 2 ^ 20 = v := by omega
  unfold decode
  rw [if_pos (by omega), Int.toNat_natCast]
  unfold decodeNew dec
  simp only [e1, e2, e3]
  rw [if_neg (by omega)]

theorem clip_id (R : Rounding) (kind : Nat) (p : ℚ) (h1 : lowVal kind ≤ p) (h2 : p ≤ hiVal kind) :
    clip R kind p = if |p| < R.r4 (R.r4 (1001 / 1000) * zeroVal R kind) then zeroVal2 kind else p := by
  unfold clip
  simp only [max_eq_left h1, min_eq_left h2]

/-! ### Encoding followed by decoding -/

theorem pack_pos {R : Rounding} (hR : Good R) (fuel kind : Nat) (q : ℚ) (h0 : 0 ≤ q) (h1 : q ≤ 10 ^ 10) :
    ∃ T k, Ended 100000 q T k ∧ pack R (fuel + 14) kind q = some ((code (kind % 16) k (nint T).toNat : Nat) : Int) := by
  obtain ⟨T, k, hs, he⟩ := loop_end hR 100000 (by norm_num) (by norm_num) q h0 (by norm_num; linarith) fuel
  refine ⟨T, k, he, ?_⟩
  unfold pack
  simp only [ge_iff_le, h0, if_true]
  norm_num at hs
  rw [hs]
  have := he.top
  push_cast at this
  simp only [gt_iff_lt]
  rw [if_neg (by linarith), zero_add]
  rfl

theorem pack_neg {R : Rounding} (hR : Good R) (fuel kind : Nat) (q : ℚ) (h0 : q < 0) (h1 : -q ≤ 480000000) :
    ∃ T k, Ended 4800 (-q) T k ∧
      pack R (fuel + 14) kind q = some ((code (kind % 16) k (1000000 + nint T).toNat : Nat) : Int) := by
  obtain ⟨T, k, hs, he⟩ := loop_end hR 4800 (by norm_num) (by norm_num) (-q) (by linarith) (by norm_num; linarith) fuel
  refine ⟨T, k, he, ?_⟩
  unfold pack
  have hn : ¬ 0 ≤ q := by linarith
  simp only [ge_iff_le, hn, if_false]
  norm_num at hs
  rw [hs]
  have := he.top
  push_cast at this
  simp only [gt_iff_lt]
  rw [if_neg (by linarith)]
  rfl

theorem code_big (kk k v : Nat) (hv : v < 2 ^ 20) (hk : k < 16) (h : kk ≠ 0 ∨ k ≠ 0) : 32767 < code kk k v := by
  rw [code_eq kk k v hv hk]
  omega

theorem core_pos {R : Rounding} (hR : Good R) (fuel kind : Nat) (q : ℚ) (h0 : 0 ≤ q) (h1 : q ≤ 10 ^ 10)
    (hkk : kind % 16 < 15) (hb : kind % 16 ≠ 0 ∨ q < 1000000) :
    ∃ (M : Int) (k : Nat) (ip : Int), k ≤ 15 ∧ 0 ≤ M ∧ M ≤ 1000000 ∧ pack R (fuel + 14) kind q = some ip ∧
      decode R ip = dec R (kind % 16) M k ∧ |(M : ℚ) / P k - q| ≤ q * (501 / 10 ^ 8) + 6 / 10 ^ 12 ∧
      (∀ B : Int, q ≤ B → B < 1000000 ∨ 10 ^ 10 ≤ B → (M : ℚ) / P k ≤ B) ∧ (1 ≤ q → 1 ≤ (M : ℚ) / P k) ∧
      ip.toNat / 2 ^ 20 % 16 = k ∧ |(M : ℚ) / P k - q| ≤ (1 / 2 + 1 / 10 ^ 8) * (10 ^ 4 / 10 ^ k) := by
  obtain ⟨T, k, he, hp⟩ := pack_pos hR fuel kind q h0 h1
  obtain ⟨m0, m1⟩ := mant_range he
  have hk := he.hk
  have hv : (nint T).toNat < 2 ^ 20 := by omega
  have hbig : 32767 < code (kind % 16) k (nint T).toNat := by
    apply code_big _ _ _ hv (by omega)
    rcases hb with hb | hb
    · exact Or.inl hb
    · right
      intro hk0
      have := he.big (by omega)
      push_cast at this
      linarith
  refine ⟨nint T, k, _, hk, m0, by omega, hp, ?_, ?_, ?_, ?_, ?_, mant_unit (by norm_num) (by norm_num) h0 he⟩
  · rw [decode_code R _ k _ hv (by omega) hkk hbig]
    rw [Int.toNat_of_nonneg m0, if_neg (by omega)]
  · have := mant_value (by norm_num) (by norm_num) h0 he
    refine le_trans this ?_
    norm_num
  · intro B hB hB'
    apply mant_le (by norm_num) (by norm_num) h0 he B hB
    omega
  · intro h
    exact mant_ge (by norm_num) (by norm_num) h he
  · rw [Int.toNat_natCast, code_eq _ k _ hv (by omega)]
    omega

theorem core_neg {R : Rounding} (hR : Good R) (fuel kind : Nat) (q : ℚ) (h0 : q ≤ -(51 / 10 ^ 13)) (h1 : -q ≤ 480000000)
    (hkk : kind % 16 < 15) (hb : kind % 16 ≠ 0 ∨ -q < 48000) :
    ∃ (M : Int) (k : Nat) (ip : Int), k ≤ 15 ∧ 1 ≤ M ∧ M ≤ 48000 ∧ pack R (fuel + 14) kind q = some ip ∧
      decode R ip = dec R (kind % 16) (-M) k ∧ |(M : ℚ) / P k - -q| ≤ -q * (1044 / 10 ^ 7) + 6 / 10 ^ 12 ∧
      (∀ B : Int, -q ≤ B → B < 48000 ∨ 480000000 ≤ B → (M : ℚ) / P k ≤ B) ∧ (1 ≤ -q → 1 ≤ (M : ℚ) / P k) ∧
      ip.toNat / 2 ^ 20 % 16 = k ∧ |(M : ℚ) / P k - -q| ≤ (1 / 2 + 1 / 10 ^ 8) * (10 ^ 4 / 10 ^ k) := by
  have hq : 0 ≤ -q := by linarith
  obtain ⟨T, k, he, hp⟩ := pack_neg hR fuel kind q (by linarith) h1
  obtain ⟨m0, m1⟩ := mant_range he
  have hk := he.hk
  have hm1 : 1 ≤ nint T := by
    have h2 := ended_err (by norm_num) (by norm_num) hq he
    rw [abs_le] at h2
    have h3 : (1 : ℚ) / 2 < T := by
      rcases he.low with hl | hl
      · push_cast at hl
        linarith
      · have e : P k = 10 ^ 11 := by rw [hl]; unfold P; norm_num
        rw [e] at h2
        linarith [h2.1]
    refine (nint_range T 1 (10 * 4800) (by push_cast; linarith) ?_).1
    have := he.top
    push_cast at this ⊢
    linarith
  have hv : (1000000 + nint T).toNat < 2 ^ 20 := by omega
  have hbig : 32767 < code (kind % 16) k (1000000 + nint T).toNat := by
    apply code_big _ _ _ hv (by omega)
    rcases hb with hb | hb
    · exact Or.inl hb
    · right
      intro hk0
      have := he.big (by omega)
      push_cast at this
      linarith
  refine ⟨nint T, k, _, hk, hm1, by omega, hp, ?_, ?_, ?_, ?_, ?_, mant_unit (by norm_num) (by norm_num) hq he⟩
  · rw [decode_code R _ k _ hv (by omega) hkk hbig]
    rw [Int.toNat_of_nonneg (by omega), if_pos (by omega), show 1000000 + nint T - 1000000 = nint T by omega]
  · have := mant_value (by norm_num) (by norm_num) hq he
    refine le_trans this ?_
    have : -q * (501 / 1000 / ((4800 : Int) : ℚ)) ≤ -q * (1044 / 10 ^ 7) := by
      apply mul_le_mul_of_nonneg_left _ hq
      norm_num
    linarith
  · intro B hB hB'
    apply mant_le (by norm_num) (by norm_num) hq he B hB
    omega
  · intro h
    exact mant_ge (by norm_num) (by norm_num) h he
  · rw [Int.toNat_natCast, code_eq _ k _ hv (by omega)]
    omega

theorem value_raw {R : Rounding} (hR : Good R) (kind : Nat) (M : Int) (k : Nat) (hf : factVal kind = 1) :
    value R kind M k = raw R M k := by
  unfold value
  rw [hf, div_one]
  exact r4_single hR _ (raw_single hR M k)

theorem value_neg {R : Rounding} (hR : Good R) (M : Int) (k : Nat) : value R 17 M k = -raw R M k := by
  unfold value
  have : factVal 17 = -1 := rfl
  rw [this, div_neg, div_one]
  exact r4_single hR _ (single_neg _ (raw_single hR M k))

/-- The values that can be coded, for each kind. -/
def Codable (kind : Nat) (p : ℚ) : Prop :=
  (kind = 0 ∧ -20000 ≤ p ∧ p ≤ 100000) ∨ (kind = 1 ∧ 0 ≤ p ∧ p ≤ 1) ∨ (kind = 2 ∧ 0 ≤ p ∧ p ≤ 1100) ∨
  (kind = 3 ∧ -480000000 ≤ p ∧ p ≤ 10 ^ 10) ∨ (kind = 4 ∧ -20000 ≤ p ∧ p ≤ 100000) ∨ (kind = 5 ∧ 0 ≤ p ∧ p ≤ 1) ∨
  (kind = 6 ∧ 1 ≤ p ∧ p ≤ 200000) ∨ (kind = 7 ∧ 0 ≤ p ∧ p ≤ 20000) ∨ (kind = 10 ∧ 0 ≤ p ∧ p ≤ 10 ^ 10) ∨
  (kind = 17 ∧ 1 ≤ p ∧ p ≤ 480000000) ∨ (kind = 21 ∧ 0 ≤ p ∧ p ≤ 1000000)

theorem r8_single {R : Rounding} (hR : Good R) (p : ℚ) (hp : Single p) : R.r8 p = p := by
  obtain ⟨m, e, hm, he⟩ := hp
  rw [he]
  exact hR.s8 m e (by omega)

theorem dec_first {R : Rounding} (hR : Good R) (kk : Nat) (M : Int) (k : Nat) (hv : validKind kk = true) (hf : factVal kk = 1)
    (h1 : lowVal kk ≤ raw R M k) (h2 : raw R M k ≤ hiVal kk) : dec R kk M k = ((kk : Int), clip R kk (raw R M k)) := by
  unfold dec
  rw [hv, value_raw hR kk M k hf]
  simp only [Bool.not_true, Bool.false_eq_true, if_false]
  rw [if_neg (by rw [not_or, not_lt, gt_iff_lt, not_lt]; exact ⟨h1, h2⟩)]

theorem clip_zero {R : Rounding} (hR : Good R) (kind : Nat) (p : ℚ) (hz : zeroVal R kind = 0) (h1 : lowVal kind ≤ p)
    (h2 : p ≤ hiVal kind) : clip R kind p = p := by
  rw [clip_id R kind p h1 h2, hz, mul_zero, r4_zero hR, if_neg (by rw [not_lt]; exact abs_nonneg p)]

theorem neg_div_P (M : Int) (k : Nat) : ((-M : Int) : ℚ) / P k = -((M : ℚ) / P k) := by push_cast; ring

/-- Unit of the pseudo mantissa of a code, for a kind. -/
def unit (kind : Nat) (ip : Int) : ℚ := 10 ^ 4 / 10 ^ (ip.toNat / 2 ^ 20 % 16) / (if kind = 21 then 10 ^ 4 else 1)

/-- `p'` is `p` within half a unit of the pseudo mantissa (and the precision of reals); five digits are kept, four for
values coded as negative ones. -/
def Close (kind : Nat) (ip : Int) (p p' : ℚ) : Prop :=
  |p' - p| ≤ |p| * (if 0 ≤ p ∧ kind ≠ 17 then 53 / 10 ^ 7 else 106 / 10 ^ 6) + 7 / 10 ^ 12 ∧
    |p' - p| ≤ (1 / 2 + 2 / 10 ^ 7) * unit kind ip + |p| * (2 / 10 ^ 7)

/-- Kinds without scaling and without a smallest value. -/
theorem trip_plain {R : Rounding} (hR : Good R) (fuel kind : Nat) (p : ℚ) (lo hi : Int) (hp : Single p) (hkk : kind < 15)
    (hv : validKind kind = true) (hf : factVal kind = 1) (hz : zeroVal R kind = 0) (hlo : lowVal kind = lo) (hhi : hiVal kind = hi)
    (h1 : lo ≤ p) (h2 : p ≤ hi) (hs : Single hi) (hsl : Single lo) (hhi1 : 1 ≤ hi) (hhi2 : hi < 1000000 ∨ hi = 10 ^ 10)
    (hlo1 : lo = 0 ∨ lo = -20000 ∨ lo = -480000000) (hk0 : kind ≠ 0 ∨ (hi < 1000000 ∧ lo = -20000)) (hneg : ¬ (-(51 / 10 ^ 13) < p ∧ p < 0)) (h0 : ¬ (kind = 2 ∧ p = 0)) :
    ∃ ip p', encodeNew R (fuel + 14) kind p = some ip ∧ decode R ip = ((kind : Int), p') ∧
      Close kind ip p p' := by
  have e16 : kind % 16 = kind := Nat.mod_eq_of_lt (by omega)
  have hinv : invalidKind kind = false := by
    unfold invalidKind
    simp only [Bool.and_eq_false_imp, decide_eq_true_eq]
    omega
  have henc : encodeNew R (fuel + 14) kind p = pack R (fuel + 14) kind p := by
    unfold encodeNew
    rw [hinv, hlo, hhi, hf, hz]
    simp only [Bool.false_eq_true, if_false, mul_one]
    rw [if_neg h0, if_neg (by omega), if_neg (by rw [not_or, not_lt, gt_iff_lt, not_lt]; exact ⟨h1, h2⟩),
      if_neg (by rw [not_lt]; exact abs_nonneg p), r8_single hR p hp]
  have hk17 : kind ≠ 17 := by omega
  have hk21 : kind ≠ 21 := by omega
  have hhq : p ≤ 10 ^ 10 := by
    rcases hhi2 with h | h
    · have : (hi : ℚ) < 1000000 := by exact_mod_cast h
      linarith
    · rw [h] at h2
      push_cast at h2
      exact h2
  by_cases hp0 : 0 ≤ p
  · obtain ⟨M, k, ip, hk, m0, m1, e1, e2, e3, e4, -, e6, e7⟩ := core_pos hR fuel kind p hp0 hhq (by omega) (by
      rcases hk0 with h | h
      · exact Or.inl (by omega)
      · right
        have : (hi : ℚ) < 1000000 := by exact_mod_cast h.1
        linarith)
    have e5 := e4 hi h2 (by omega)
    have hPk := P_pos k
    have m0q : (0 : ℚ) ≤ M := by exact_mod_cast m0
    have m1q : (M : ℚ) ≤ 1000000 := by exact_mod_cast m1
    have e0 : 0 ≤ (M : ℚ) / P k := div_nonneg m0q (le_of_lt hPk)
    have r1 := raw_nonneg hR M k hk m0q
    have r2 := raw_abs_le hR M k hk hi hs (by exact_mod_cast hhi1) (by rw [abs_of_nonneg e0]; exact e5)
      (by rw [abs_of_nonneg m0q]; exact m1q)
    rw [abs_of_nonneg r1] at r2
    have r3 : lowVal kind ≤ raw R M k := by
      rw [hlo]
      have : (lo : ℚ) ≤ 0 := by
        have : lo ≤ 0 := by omega
        exact_mod_cast this
      linarith
    have r4 : raw R M k ≤ hiVal kind := by rw [hhi]; exact r2
    refine ⟨ip, raw R M k, by rw [henc]; exact e1, ?_, ?_⟩
    · rw [e2, e16, dec_first hR kind M k hv hf r3 r4, clip_zero hR kind _ hz r3 r4]
    · have r5 := raw_near hR M k hk
      rw [abs_of_nonneg e0] at r5
      unfold Close unit
      rw [abs_of_nonneg hp0, if_pos ⟨hp0, hk17⟩, e6, if_neg hk21, div_one]
      have hu : (0 : ℚ) < 10 ^ 4 / 10 ^ k := by positivity
      have := abs_sub_le (raw R M k) ((M : ℚ) / P k) p
      have r6 := (abs_le.1 e3).2
      have r7 := (abs_le.1 e7).2
      generalize (M : ℚ) / P k = y at *
      generalize (10 : ℚ) ^ 4 / 10 ^ k = u at *
      constructor <;> linarith
  · rw [not_le] at hp0
    have hp1 : p ≤ -(51 / 10 ^ 13) := by
      by_contra hc
      rw [not_le] at hc
      exact hneg ⟨hc, hp0⟩
    have hlo2 : lo = -20000 ∨ lo = -480000000 := by
      rcases hlo1 with h | h
      · rw [h] at h1
        push_cast at h1
        linarith
      · exact h
    have hloq : -(480000000 : ℚ) ≤ lo := by
      have : -480000000 ≤ lo := by omega
      exact_mod_cast this
    obtain ⟨M, k, ip, hk, m0, m1, e1, e2, e3, e4, -, e6, e7⟩ := core_neg hR fuel kind p hp1 (by linarith) (by omega) (by
      rcases hk0 with h | h
      · exact Or.inl (by omega)
      · right
        rw [h.2] at h1
        push_cast at h1
        linarith)
    have e5 := e4 (-lo) (by push_cast; linarith) (by omega)
    have hPk := P_pos k
    have m0q : (0 : ℚ) ≤ M := by
      have : 0 ≤ M := by omega
      exact_mod_cast this
    have m1q : (M : ℚ) ≤ 48000 := by exact_mod_cast m1
    have e0 : 0 ≤ (M : ℚ) / P k := div_nonneg m0q (le_of_lt hPk)
    have r1 := raw_nonpos hR ((-M : Int) : ℚ) k hk (by push_cast; linarith)
    have r2 := raw_abs_le hR ((-M : Int) : ℚ) k hk ((-lo : Int) : ℚ) (by push_cast; exact single_neg _ hsl)
      (by
        have : 1 ≤ -lo := by omega
        exact_mod_cast this)
      (by rw [neg_div_P, abs_neg, abs_of_nonneg e0]; exact e5)
      (by push_cast; rw [abs_neg, abs_of_nonneg m0q]; linarith)
    rw [abs_of_nonpos r1] at r2
    have r3 : lowVal kind ≤ raw R ((-M : Int) : ℚ) k := by
      rw [hlo]
      push_cast at r2 ⊢
      linarith
    have r4 : raw R ((-M : Int) : ℚ) k ≤ hiVal kind := by
      rw [hhi]
      have : (1 : ℚ) ≤ hi := by exact_mod_cast hhi1
      linarith
    refine ⟨ip, raw R ((-M : Int) : ℚ) k, by rw [henc]; exact e1, ?_, ?_⟩
    · rw [e2, e16, dec_first hR kind (-M) k hv hf r3 r4, clip_zero hR kind _ hz r3 r4]
    · have r5 := raw_near hR ((-M : Int) : ℚ) k hk
      rw [neg_div_P, abs_neg, abs_of_nonneg e0] at r5
      unfold Close unit
      rw [abs_of_neg hp0, if_neg (by intro h; linarith [h.1]), e6, if_neg hk21, div_one]
      have hu : (0 : ℚ) < 10 ^ 4 / 10 ^ k := by positivity
      have r8 := abs_sub_le (raw R ((-M : Int) : ℚ) k) (-((M : ℚ) / P k)) p
      rw [show -((M : ℚ) / P k) - p = -((M : ℚ) / P k - -p) by ring, abs_neg] at r8
      have r6 := (abs_le.1 e3).2
      have r7 := (abs_le.1 e7).2
      generalize (M : ℚ) / P k = y at *
      generalize (10 : ℚ) ^ 4 / 10 ^ k = u at *
      constructor <;> linarith

theorem thousandth {R : Rounding} (hR : Good R) : 1001 / 1000 - 7 / 10 ^ 8 ≤ R.r4 (1001 / 1000) ∧ R.r4 (1001 / 1000) ≤ 1001 / 1000 + 7 / 10 ^ 8 := by
  have := r4_bound hR (1001 / 1000) (by norm_num)
  constructor <;> linarith [this.1, this.2]

/-- Kind 6 (theta). -/
theorem trip_theta {R : Rounding} (hR : Good R) (fuel : Nat) (p : ℚ) (hp : Single p) (h1 : 1 ≤ p) (h2 : p ≤ 200000) :
    ∃ ip p', encodeNew R (fuel + 14) 6 p = some ip ∧ decode R ip = (6, p') ∧
      (Close 6 ip p p' ∨ (p < 10012 / 10000 ∧ p' = 1)) := by
  have henc : encodeNew R (fuel + 14) 6 p = pack R (fuel + 14) 6 p := by
    unfold encodeNew
    have e1 : invalidKind 6 = false := by decide
    have e2 : zeroVal R 6 = 1 := rfl
    have e3 : factVal 6 = 1 := rfl
    have e4 : lowVal 6 = 1 := rfl
    have e5 : hiVal 6 = 200000 := rfl
    rw [e1, e2, e3, e4, e5, abs_of_nonneg (by linarith)]
    simp only [Bool.false_eq_true, if_false, mul_one]
    rw [if_neg (by omega), if_neg (by omega), if_neg (by rw [not_or, not_lt, gt_iff_lt, not_lt]; exact ⟨h1, h2⟩),
      if_neg (by linarith), r8_single hR p hp]
  obtain ⟨M, k, ip, hk, m0, m1, e1, e2, e3, e4, e5, e6, e7⟩ := core_pos hR fuel 6 p (by linarith) (by linarith) (by norm_num) (by norm_num)
  have e5 := e5 h1
  have e4 := e4 200000 (by push_cast; exact h2) (by norm_num)
  push_cast at e4
  have m0q : (0 : ℚ) ≤ M := by exact_mod_cast m0
  have m1q : (M : ℚ) ≤ 1000000 := by exact_mod_cast m1
  have hab : |(M : ℚ)| ≤ 1000000 := by rw [abs_of_nonneg m0q]; exact m1q
  have e0 : |(M : ℚ) / P k| = (M : ℚ) / P k := abs_of_nonneg (by linarith)
  have r1 := (raw_one_le hR M k hk hab).1 e5
  have r2 := raw_abs_le hR M k hk 200000 ⟨200000, 0, by norm_num, by norm_num⟩ (by norm_num) (by rw [e0]; exact e4) hab
  rw [abs_of_nonneg (by linarith)] at r2
  have r5 := raw_near hR M k hk
  rw [e0] at r5
  have hclose : Close 6 ip p (raw R M k) := by
    unfold Close unit
    rw [abs_of_nonneg (by linarith : 0 ≤ p), if_pos ⟨by linarith, by norm_num⟩, e6, if_neg (by norm_num), div_one]
    have hu : (0 : ℚ) < 10 ^ 4 / 10 ^ k := by positivity
    have := abs_sub_le (raw R M k) ((M : ℚ) / P k) p
    have r6 := (abs_le.1 e3).2
    have r7 := (abs_le.1 e7).2
    generalize (M : ℚ) / P k = y at *
    generalize (10 : ℚ) ^ 4 / 10 ^ k = u at *
    constructor <;> linarith
  have hd : decode R ip = (6, if raw R M k < R.r4 (R.r4 (1001 / 1000)) then 1 else raw R M k) := by
    rw [e2, dec_first hR 6 M k (by decide) rfl r1 r2, clip_id R 6 _ r1 r2]
    have e2 : zeroVal R 6 = 1 := rfl
    rw [e2, mul_one, abs_of_nonneg (by linarith)]
    rfl
  by_cases hc : raw R M k < R.r4 (R.r4 (1001 / 1000))
  · rw [if_pos hc] at hd
    refine ⟨ip, 1, by rw [henc]; exact e1, hd, Or.inr ⟨?_, rfl⟩⟩
    rw [r4_single hR _ (hR.near4 _).1] at hc
    have hc' := (thousandth hR).2
    have h8 := hclose.1
    rw [abs_of_nonneg (by linarith : 0 ≤ p), if_pos ⟨by linarith, by norm_num⟩, abs_le] at h8
    by_contra hcc
    rw [not_lt] at hcc
    linarith [h8.1]
  · rw [if_neg hc] at hd
    exact ⟨ip, raw R M k, by rw [henc]; exact e1, hd, Or.inl hclose⟩

/-- Kind 17, coded as negative values of kind 1. -/
theorem trip_index {R : Rounding} (hR : Good R) (fuel : Nat) (p : ℚ) (hp : Single p) (h1 : 1 ≤ p) (h2 : p ≤ 480000000) :
    ∃ ip p', encodeNew R (fuel + 14) 17 p = some ip ∧ decode R ip = (17, p') ∧
      (Close 17 ip p p' ∨ (p < 10012 / 10000 ∧ p' = 1)) := by
  have henc : encodeNew R (fuel + 14) 17 p = pack R (fuel + 14) 17 (-p) := by
    unfold encodeNew
    have e1 : invalidKind 17 = false := by decide
    have e2 : zeroVal R 17 = 1 := rfl
    have e3 : factVal 17 = -1 := rfl
    have e4 : lowVal 17 = 1 := rfl
    have e5 : hiVal 17 = 10000000000 := rfl
    rw [e1, e2, e3, e4, e5, abs_of_nonneg (by linarith)]
    simp only [Bool.false_eq_true, if_false, mul_neg, mul_one]
    rw [if_neg (by omega), if_neg (by omega), if_neg (by rw [not_or, not_lt, gt_iff_lt, not_lt]; exact ⟨h1, by linarith⟩),
      if_neg (by linarith), r8_single hR _ (single_neg p hp)]
  obtain ⟨M, k, ip, hk, m0, m1, e1, e2, e3, e4, e5, e6, e7⟩ :=
    core_neg hR fuel 17 (-p) (by linarith) (by linarith) (by norm_num) (by norm_num)
  rw [neg_neg] at e3 e5 e7
  have e5 := e5 h1
  have e4 := e4 480000000 (by push_cast; linarith) (by norm_num)
  push_cast at e4
  have m0q : (0 : ℚ) ≤ M := by
    have : 0 ≤ M := by omega
    exact_mod_cast this
  have m1q : (M : ℚ) ≤ 48000 := by exact_mod_cast m1
  have hab : |((-M : Int) : ℚ)| ≤ 1000000 := by push_cast; rw [abs_neg, abs_of_nonneg m0q]; linarith
  have e0 : |((-M : Int) : ℚ) / P k| = (M : ℚ) / P k := by rw [neg_div_P, abs_neg]; exact abs_of_nonneg (by linarith)
  have r1 := (raw_one_le hR ((-M : Int) : ℚ) k hk hab).2 (by rw [neg_div_P]; linarith)
  have r2 := raw_abs_le hR ((-M : Int) : ℚ) k hk 480000000 ⟨234375, 11, by norm_num, by norm_num⟩ (by norm_num) (by rw [e0]; exact e4) hab
  rw [abs_of_nonpos (by linarith)] at r2
  have r5 := raw_near hR ((-M : Int) : ℚ) k hk
  rw [e0, neg_div_P] at r5
  have hval : value R 17 (-M) k = -raw R ((-M : Int) : ℚ) k := value_neg hR (-M) k
  obtain ⟨v, hv⟩ : ∃ v, v = -raw R ((-M : Int) : ℚ) k := ⟨_, rfl⟩
  have hraw : raw R ((-M : Int) : ℚ) k = -v := by rw [hv, neg_neg]
  rw [hraw] at r1 r2 r5 hval
  rw [neg_neg] at hval r2
  have hclose : Close 17 ip p v := by
    unfold Close unit
    rw [abs_of_nonneg (by linarith : 0 ≤ p), if_neg (by intro h; exact h.2 rfl), e6, if_neg (by norm_num), div_one]
    have hu : (0 : ℚ) < 10 ^ 4 / 10 ^ k := by positivity
    have := abs_sub_le v ((M : ℚ) / P k) p
    rw [show -v - -((M : ℚ) / P k) = -(v - (M : ℚ) / P k) by ring, abs_neg] at r5
    have r6 := (abs_le.1 e3).2
    have r7 := (abs_le.1 e7).2
    generalize (M : ℚ) / P k = y at *
    generalize (10 : ℚ) ^ 4 / 10 ^ k = u at *
    constructor <;> linarith
  have hd : decode R ip = (17, if v < R.r4 (R.r4 (1001 / 1000)) then 1 else v) := by
    rw [e2, show 17 % 16 = 1 from rfl]
    unfold dec
    have f1 : value R 1 (-M) k = -v := by rw [value_raw hR 1 (-M) k rfl, hraw]
    have f2 : lowVal 1 = 0 := rfl
    have f3 : lowVal (1 + 16) = 1 := rfl
    have f4 : hiVal (1 + 16) = 10000000000 := rfl
    have f5 : validKind 1 = true := by decide
    have f6 : validKind (1 + 16) = true := by decide
    have f7 : value R (1 + 16) (-M) k = v := hval
    rw [f1, f2, f3, f4, f5, f6, f7]
    simp only [Bool.not_true, Bool.false_eq_true, if_false]
    rw [if_pos (by left; linarith), if_neg (by rw [not_or, not_lt, gt_iff_lt, not_lt]; exact ⟨by linarith, by linarith⟩),
      clip_id R (1 + 16) _ (by rw [f3]; linarith) (by rw [f4]; linarith)]
    have e2 : zeroVal R (1 + 16) = 1 := rfl
    rw [e2, mul_one, abs_of_nonneg (by linarith)]
    rfl
  by_cases hc : v < R.r4 (R.r4 (1001 / 1000))
  · rw [if_pos hc] at hd
    refine ⟨ip, 1, by rw [henc]; exact e1, hd, Or.inr ⟨?_, rfl⟩⟩
    rw [r4_single hR _ (hR.near4 _).1] at hc
    have hc' := (thousandth hR).2
    have h8 := hclose.1
    rw [abs_of_nonneg (by linarith : 0 ≤ p), if_neg (by intro h; exact h.2 rfl), abs_le] at h8
    by_contra hcc
    rw [not_lt] at hcc
    linarith [h8.1]
  · rw [if_neg hc] at hd
    exact ⟨ip, v, by rw [henc]; exact e1, hd, Or.inl hclose⟩

/-- Kind 21, coded as values over one of kind 5. -/
theorem trip_delta {R : Rounding} (hR : Good R) (fuel : Nat) (p : ℚ) (hp : Single p) (h1 : 0 ≤ p) (h2 : p ≤ 1000000) :
    ∃ ip p', encodeNew R (fuel + 14) 21 p = some ip ∧ decode R ip = (21, p') ∧
      (Close 21 ip p p' ∨ (p < 10022 / 10 ^ 8 ∧ p' = 0)) := by
  obtain ⟨z, hz⟩ : ∃ z, z = R.r4 (1001 / 10 ^ 7) := ⟨_, rfl⟩
  have hzs : Single z := by rw [hz]; exact (hR.near4 _).1
  have hzb := r4_bound hR (1001 / 10 ^ 7) (by norm_num)
  rw [← hz] at hzb
  have hzv : zeroVal R 21 = z := by rw [hz]; rfl
  obtain ⟨t, ht⟩ : ∃ t, t = if |p| < z then z else p := ⟨_, rfl⟩
  have hts : Single t := by rw [ht]; split <;> assumption
  have htb : z ≤ t ∧ t ≤ 1000000 := by
    rw [ht, abs_of_nonneg h1]
    split
    · exact ⟨le_refl _, by linarith [hzb.2]⟩
    · exact ⟨by linarith, h2⟩
  have hx : R.r8 (t * 10000) = t * 10000 := by
    obtain ⟨m, e, hm, he⟩ := hts
    have := hR.s8 (m * 10000) e (by
      rw [abs_mul]
      have : |(10000 : Int)| = 10000 := by norm_num
      rw [this]
      omega)
    rw [he, show (m : ℚ) * 2 ^ e * 10000 = ((m * 10000 : Int) : ℚ) * 2 ^ e by push_cast; ring]
    exact this
  have henc : encodeNew R (fuel + 14) 21 p = pack R (fuel + 14) 21 (t * 10000) := by
    unfold encodeNew
    have e1 : invalidKind 21 = false := by decide
    have e3 : factVal 21 = 10000 := rfl
    have e4 : lowVal 21 = 0 := rfl
    have e5 : hiVal 21 = 1000000 := rfl
    rw [e1, hzv, e3, e4, e5]
    simp only [Bool.false_eq_true, if_false]
    rw [if_neg (by omega), if_neg (by omega), if_neg (by rw [not_or, not_lt, gt_iff_lt, not_lt]; exact ⟨h1, h2⟩), ← ht, hx]
  obtain ⟨M, k, ip, hk, m0, m1, e1, e2, e3, e4, e5, e6, e7⟩ :=
    core_pos hR fuel 21 (t * 10000) (by linarith [hzb.1]) (by linarith) (by norm_num) (by norm_num)
  have e4 := e4 (10 ^ 10) (by push_cast; linarith) (by norm_num)
  push_cast at e4
  have m0q : (0 : ℚ) ≤ M := by exact_mod_cast m0
  have m1q : (M : ℚ) ≤ 1000000 := by exact_mod_cast m1
  have hab : |(M : ℚ)| ≤ 1000000 := by rw [abs_of_nonneg m0q]; exact m1q
  have e00 : 0 ≤ (M : ℚ) / P k := div_nonneg m0q (le_of_lt (P_pos k))
  have e0 : |(M : ℚ) / P k| = (M : ℚ) / P k := abs_of_nonneg e00
  have r2 := raw_abs_le hR M k hk (10 ^ 10) ⟨9765625, 10, by norm_num, by norm_num⟩ (by norm_num) (by rw [e0]; exact e4) hab
  have r1 := raw_nonneg hR M k hk m0q
  rw [abs_of_nonneg r1] at r2
  have r5 := raw_near hR M k hk
  rw [e0] at r5
  obtain ⟨w, hw⟩ : ∃ w, w = raw R M k := ⟨_, rfl⟩
  rw [← hw] at r1 r2 r5
  have hone : 1 < w := by
    have r6 := (abs_le.1 e3).1
    have r7 := (abs_le.1 r5).1
    generalize (M : ℚ) / P k = y at *
    linarith [hzb.1, htb.1]
  obtain ⟨v, hv⟩ : ∃ v, v = R.r4 (w / 10000) := ⟨_, rfl⟩
  have hv0 : 0 ≤ v := by
    rw [hv]
    apply r4_ge hR 0 _ ⟨0, 0, by norm_num, by norm_num⟩
    rw [abs_zero]
    linarith
  have hv1 : v ≤ 1000000 := by
    rw [hv]
    apply r4_le hR 1000000 _ ⟨1000000, 0, by norm_num, by norm_num⟩
    rw [abs_of_pos (by norm_num)]
    linarith
  have hve := hR.e4 (w / 10000)
  rw [← hv, abs_of_nonneg (show 0 ≤ w / 10000 by linarith)] at hve
  have hclose : |v - t| ≤ t * (53 / 10 ^ 7) + 7 / 10 ^ 16 ∧
      |v - t| ≤ (1 / 2 + 2 / 10 ^ 7) * (10 ^ 4 / 10 ^ k / 10 ^ 4) + t * (2 / 10 ^ 7) := by
    have hu : (0 : ℚ) < 10 ^ 4 / 10 ^ k := by positivity
    have r6 := abs_le.1 e3
    have r7 := abs_le.1 e7
    have r8 := abs_le.1 r5
    have r9 := abs_le.1 hve
    generalize (M : ℚ) / P k = y at *
    generalize (10 : ℚ) ^ 4 / 10 ^ k = u at *
    have ht0 : 0 ≤ t := by linarith [hzb.1]
    constructor <;> rw [abs_le] <;> constructor <;> linarith [r6.1, r6.2, r7.1, r7.2, r8.1, r8.2, r9.1, r9.2]
  have hd : decode R ip = (21, if v < R.r4 (R.r4 (1001 / 1000) * z) then 0 else v) := by
    rw [e2, show 21 % 16 = 5 from rfl]
    unfold dec
    have f1 : value R 5 M k = w := by rw [value_raw hR 5 M k rfl, hw]
    have f2 : hiVal 5 = 1 := rfl
    have f3 : lowVal (5 + 16) = 0 := rfl
    have f4 : hiVal (5 + 16) = 1000000 := rfl
    have f5 : validKind 5 = true := by decide
    have f6 : validKind (5 + 16) = true := by decide
    have f7 : value R (5 + 16) M k = v := by
      rw [hv, hw]
      rfl
    rw [f1, f2, f3, f4, f5, f6, f7]
    simp only [Bool.not_true, Bool.false_eq_true, if_false]
    rw [if_pos (by right; exact hone), if_neg (by rw [not_or, not_lt, gt_iff_lt, not_lt]; exact ⟨hv0, hv1⟩),
      clip_id R (5 + 16) _ hv0 hv1]
    have e2 : zeroVal R (5 + 16) = z := hzv
    rw [e2, abs_of_nonneg hv0]
    rfl
  have hth := thousandth hR
  have hzz : 0 ≤ z := by linarith [hzb.1]
  obtain ⟨a, ha⟩ : ∃ a, a = R.r4 (1001 / 1000) * z := ⟨_, rfl⟩
  have ha1 : (1001 / 1000 - 7 / 10 ^ 8) * z ≤ a := by rw [ha]; exact mul_le_mul_of_nonneg_right hth.1 hzz
  have ha2 : a ≤ (1001 / 1000 + 7 / 10 ^ 8) * z := by rw [ha]; exact mul_le_mul_of_nonneg_right hth.2 hzz
  rw [← ha] at hd
  have hab := r4_bound hR a (by linarith)
  have hcl := abs_le.1 hclose.1
  by_cases hc : v < R.r4 a
  · rw [if_pos hc] at hd
    refine ⟨ip, 0, by rw [henc]; exact e1, hd, Or.inr ⟨?_, rfl⟩⟩
    have : t < 10022 / 10 ^ 8 := by linarith [hcl.1, hab.2, hzb.2]
    rw [ht, abs_of_nonneg h1] at this
    split at this
    · linarith
    · exact this
  · rw [if_neg hc] at hd
    refine ⟨ip, v, by rw [henc]; exact e1, hd, Or.inl ?_⟩
    have htp : t = p := by
      rw [ht, abs_of_nonneg h1]
      apply if_neg
      intro hlt
      have : t = z := by rw [ht, abs_of_nonneg h1, if_pos hlt]
      rw [this] at hcl
      linarith [hcl.2, hab.1, hzb.1]
    rw [htp] at hclose
    unfold Close unit
    rw [abs_of_nonneg h1, if_pos ⟨h1, by norm_num⟩, e6, if_pos rfl]
    exact ⟨by linarith [hclose.1], hclose.2⟩

/-- **C48** (round trip).  A value that a kind can have, in single precision, is encoded and decoded as the same kind and
the same value within half a unit of the pseudo mantissa, keeping at least five (four for values coded as negative ones)
digits.  The smallest values of kinds 6, 17 and 21 come back as the base value of the kind.  Missing: negative values
over -5.1e-12, see `C48_negative_witness`; kind 17 over 4.8e8, see `C48_index_witness`; kinds that are not defined. -/
theorem C48_partial {R : Rounding} (hR : Good R) (fuel kind : Nat) (p : ℚ) (hp : Single p) (hc : Codable kind p)
    (hneg : ¬ (-(51 / 10 ^ 13) < p ∧ p < 0)) :
    ∃ ip p', encodeNew R (fuel + 14) kind p = some ip ∧ decode R ip = ((kind : Int), p') ∧
      (Close kind ip p p' ∨ ((kind = 6 ∨ kind = 17) ∧ p < 10012 / 10000 ∧ p' = 1) ∨ (kind = 21 ∧ p < 10022 / 10 ^ 8 ∧ p' = 0)) := by
  have plain : (∃ ip p', encodeNew R (fuel + 14) kind p = some ip ∧ decode R ip = ((kind : Int), p') ∧ Close kind ip p p') →
      ∃ ip p', encodeNew R (fuel + 14) kind p = some ip ∧ decode R ip = ((kind : Int), p') ∧
      (Close kind ip p p' ∨ ((kind = 6 ∨ kind = 17) ∧ p < 10012 / 10000 ∧ p' = 1) ∨ (kind = 21 ∧ p < 10022 / 10 ^ 8 ∧ p' = 0)) := by
    rintro ⟨ip, p', a, b, c⟩
    exact ⟨ip, p', a, b, Or.inl c⟩
  have big : Single ((10 ^ 10 : Int) : ℚ) := ⟨9765625, 10, by norm_num, by norm_num⟩
  have low : Single ((-480000000 : Int) : ℚ) := ⟨-234375, 11, by norm_num, by norm_num⟩
  rcases hc with ⟨rfl, h1, h2⟩ | ⟨rfl, h1, h2⟩ | ⟨rfl, h1, h2⟩ | ⟨rfl, h1, h2⟩ | ⟨rfl, h1, h2⟩ | ⟨rfl, h1, h2⟩ | ⟨rfl, h1, h2⟩ |
    ⟨rfl, h1, h2⟩ | ⟨rfl, h1, h2⟩ | ⟨rfl, h1, h2⟩ | ⟨rfl, h1, h2⟩
  · exact plain (trip_plain hR fuel 0 p (-20000) 100000 hp (by norm_num) (by decide) rfl rfl rfl rfl (by push_cast; exact h1)
      (by push_cast; exact h2) (single_int _ (by norm_num)) (single_int _ (by norm_num)) (by norm_num) (by norm_num) (by norm_num)
      (by norm_num) hneg (by norm_num))
  · exact plain (trip_plain hR fuel 1 p 0 1 hp (by norm_num) (by decide) rfl rfl rfl rfl (by push_cast; exact h1)
      (by push_cast; exact h2) (single_int _ (by norm_num)) (single_int _ (by norm_num)) (by norm_num) (by norm_num) (by norm_num)
      (by norm_num) hneg (by norm_num))
  · by_cases h0 : p = 0
    · refine ⟨0, 0, ?_, ?_, Or.inl ?_⟩
      · unfold encodeNew
        rw [show invalidKind 2 = false by decide]
        simp only [Bool.false_eq_true, if_false]
        rw [if_pos ⟨trivial, h0⟩]
      · unfold decode
        norm_num
        exact r4_zero hR
      · rw [h0]
        unfold Close unit
        constructor <;> norm_num
    · exact plain (trip_plain hR fuel 2 p 0 1100 hp (by norm_num) (by decide) rfl rfl rfl rfl (by push_cast; exact h1)
        (by push_cast; exact h2) (single_int _ (by norm_num)) (single_int _ (by norm_num)) (by norm_num) (by norm_num) (by norm_num)
        (by norm_num) hneg (by intro h; exact h0 h.2))
  · exact plain (trip_plain hR fuel 3 p (-480000000) (10 ^ 10) hp (by norm_num) (by decide) rfl rfl rfl (by norm_num [hiVal])
      (by push_cast; exact h1) (by push_cast; exact h2) big low (by norm_num) (by norm_num) (by norm_num) (by norm_num) hneg (by norm_num))
  · exact plain (trip_plain hR fuel 4 p (-20000) 100000 hp (by norm_num) (by decide) rfl rfl rfl rfl (by push_cast; exact h1)
      (by push_cast; exact h2) (single_int _ (by norm_num)) (single_int _ (by norm_num)) (by norm_num) (by norm_num) (by norm_num)
      (by norm_num) hneg (by norm_num))
  · exact plain (trip_plain hR fuel 5 p 0 1 hp (by norm_num) (by decide) rfl rfl rfl rfl (by push_cast; exact h1)
      (by push_cast; exact h2) (single_int _ (by norm_num)) (single_int _ (by norm_num)) (by norm_num) (by norm_num) (by norm_num)
      (by norm_num) hneg (by norm_num))
  · obtain ⟨ip, p', a, b, c⟩ := trip_theta hR fuel p hp h1 h2
    refine ⟨ip, p', a, b, ?_⟩
    rcases c with c | c
    · exact Or.inl c
    · exact Or.inr (Or.inl ⟨Or.inl rfl, c⟩)
  · exact plain (trip_plain hR fuel 7 p 0 20000 hp (by norm_num) (by decide) rfl rfl rfl rfl (by push_cast; exact h1)
      (by push_cast; exact h2) (single_int _ (by norm_num)) (single_int _ (by norm_num)) (by norm_num) (by norm_num) (by norm_num)
      (by norm_num) hneg (by norm_num))
  · exact plain (trip_plain hR fuel 10 p 0 (10 ^ 10) hp (by norm_num) (by decide) rfl rfl rfl (by norm_num [hiVal])
      (by push_cast; exact h1) (by push_cast; exact h2) big (single_int _ (by norm_num)) (by norm_num) (by norm_num) (by norm_num)
      (by norm_num) hneg (by norm_num))
  · obtain ⟨ip, p', a, b, c⟩ := trip_index hR fuel p hp h1 h2
    refine ⟨ip, p', a, b, ?_⟩
    rcases c with c | c
    · exact Or.inl c
    · exact Or.inr (Or.inl ⟨Or.inr rfl, c⟩)
  · obtain ⟨ip, p', a, b, c⟩ := trip_delta hR fuel p hp h1 h2
    refine ⟨ip, p', a, b, ?_⟩
    rcases c with c | c
    · exact Or.inl c
    · exact Or.inr (Or.inr ⟨rfl, c⟩)

/-- Kind 15 holds integers exactly. -/
theorem C48_integers {R : Rounding} (fuel : Nat) (n : Int) (h0 : 0 ≤ n) (h1 : n ≤ 2000000) :
    ∃ ip, encodeNew R fuel 15 n = some ip ∧ decode R ip = (15, (n : ℚ)) := by
  obtain ⟨m, rfl⟩ := Int.eq_ofNat_of_zero_le h0
  have hn : nint ((m : Int) : ℚ) = m := nint_eq _ _ (by linarith) (by linarith)
  have hm : m < 2 ^ 24 := by omega
  refine ⟨((15 * 2 ^ 24 + m : Nat) : Int), ?_, ?_⟩
  · unfold encodeNew
    rw [show invalidKind 15 = false by decide]
    simp only [Bool.false_eq_true, if_false]
    rw [if_neg (by omega), if_pos (by norm_num)]
    unfold encode15 t15
    simp only [show 15 / 16 = 0 by norm_num]
    rw [hn, sub_zero, add_zero, if_neg (by omega), Int.toNat_natCast, Nat.or_comm, ← Nat.shiftLeft_add_eq_or_of_lt hm,
      Nat.shiftLeft_eq]
  · unfold decode
    rw [if_pos (by omega), Int.toNat_natCast]
    unfold decodeNew decode15
    have e1 : (15 * 2 ^ 24 + m) / 2 ^ 24 = 15 := by omega
    have e2 : (15 * 2 ^ 24 + m) % 2 ^ 24 = m := by omega
    simp only [e1, e2]
    rw [if_pos (by norm_num), if_neg (by norm_num), if_pos (by omega)]
    simp

/-! ### Codes that are decoded and encoded again -/

/-- A value close to `m` units has the pseudo exponent and pseudo mantissa of these units. -/
theorem ended_same {L2 : Int} {q T : ℚ} {k' : Nat} (hL : 4800 ≤ L2) (hL' : L2 ≤ 100000) (hq : 0 ≤ q) (he : Ended L2 q T k')
    (m : Int) (k : Nat) (hk : k ≤ 15) (hm0 : 0 ≤ m) (hn : (L2 < m ∧ m < 10 * L2) ∨ (k = 15 ∧ m ≤ L2))
    (hc : |q - m / P k| ≤ m / P k * (2 / 10 ^ 7)) : k' = k ∧ nint T = m := by
  have hP := P_pos k
  have hLq : (4800 : ℚ) ≤ L2 := by exact_mod_cast hL
  have hLq' : (L2 : ℚ) ≤ 100000 := by exact_mod_cast hL'
  have herr := ended_err (by omega) hL' hq he
  have hm0q : (0 : ℚ) ≤ m := by exact_mod_cast hm0
  have hmq : (m : ℚ) ≤ 10 * L2 - 1 := by
    have : m ≤ 10 * L2 - 1 := by omega
    exact_mod_cast this
  have hX : |q * P k - m| ≤ m * (2 / 10 ^ 7) := by
    have e : q * P k - m = (q - m / P k) * P k := by field_simp
    rw [e, abs_mul, abs_of_pos hP]
    have := mul_le_mul_of_nonneg_right hc (le_of_lt hP)
    have e2 : (m : ℚ) / P k * (2 / 10 ^ 7) * P k = m * (2 / 10 ^ 7) := by field_simp
    linarith
  have hX' := abs_le.1 hX
  have herr' := abs_le.1 herr
  have htop := he.top
  have hkk : k' = k := by
    by_contra hne
    rcases Nat.lt_or_gt_of_ne hne with hlt | hgt
    · have hl : (L2 : ℚ) ≤ T := by
        rcases he.low with h | h
        · exact h
        · omega
      have hpow : 10 * (q * P k') ≤ q * P k := by
        have : 10 * P k' ≤ P k := by
          unfold P
          have : (10 : ℚ) ^ (k' + 1) ≤ 10 ^ k := pow_le_pow_right₀ (by norm_num) (by omega)
          rw [pow_succ] at this
          rw [← mul_div_assoc]
          apply div_le_div_of_nonneg_right _ (by norm_num)
          linarith
        have := mul_le_mul_of_nonneg_left this hq
        linarith
      rcases hn with hn | hn
      · linarith [herr'.2, hX'.2]
      · have : (m : ℚ) ≤ L2 := by exact_mod_cast hn.2
        linarith [herr'.2, hX'.2]
    · have hn' : L2 < m ∧ m < 10 * L2 := by
        rcases hn with h | h
        · exact h
        · have := he.hk
          omega
      have hpow : 10 * (q * P k) ≤ q * P k' := by
        have : 10 * P k ≤ P k' := by
          unfold P
          have : (10 : ℚ) ^ (k + 1) ≤ 10 ^ k' := pow_le_pow_right₀ (by norm_num) (by omega)
          rw [pow_succ] at this
          rw [← mul_div_assoc]
          apply div_le_div_of_nonneg_right _ (by norm_num)
          linarith
        have := mul_le_mul_of_nonneg_left this hq
        linarith
      have : (L2 : ℚ) + 1 ≤ m := by
        have : L2 + 1 ≤ m := by omega
        exact_mod_cast this
      linarith [herr'.1, hX'.1]
  refine ⟨hkk, ?_⟩
  rw [hkk] at herr'
  apply nint_eq
  · linarith [herr'.1, hX'.1]
  · linarith [herr'.2, hX'.2]

theorem pack_same_pos {R : Rounding} (hR : Good R) (fuel kind : Nat) (q : ℚ) (h0 : 0 ≤ q) (h1 : q ≤ 10 ^ 10) (m : Nat) (k : Nat)
    (hk : k ≤ 15) (hn : (100000 < m ∧ m < 1000000) ∨ (k = 15 ∧ m ≤ 100000))
    (hc : |q - ((m : Int) : ℚ) / P k| ≤ ((m : Int) : ℚ) / P k * (2 / 10 ^ 7)) :
    pack R (fuel + 14) kind q = some ((code (kind % 16) k m : Nat) : Int) := by
  obtain ⟨T, k', he, hp⟩ := pack_pos hR fuel kind q h0 h1
  obtain ⟨e1, e2⟩ := ended_same (by norm_num) (by norm_num) h0 he m k hk (by omega) (by omega) hc
  rw [hp, e1, e2, Int.toNat_natCast]

theorem pack_same_neg {R : Rounding} (hR : Good R) (fuel kind : Nat) (q : ℚ) (h0 : q < 0) (h1 : -q ≤ 480000000) (m : Nat) (k : Nat)
    (hk : k ≤ 15) (hn : (4800 < m ∧ m < 48000) ∨ (k = 15 ∧ m ≤ 4800))
    (hc : |-q - ((m : Int) : ℚ) / P k| ≤ ((m : Int) : ℚ) / P k * (2 / 10 ^ 7)) :
    pack R (fuel + 14) kind q = some ((code (kind % 16) k (1000000 + m) : Nat) : Int) := by
  obtain ⟨T, k', he, hp⟩ := pack_neg hR fuel kind q h0 h1
  obtain ⟨e1, e2⟩ := ended_same (by norm_num) (by norm_num) (by linarith) he m k hk (by omega) (by omega) hc
  rw [hp, e1, e2]
  congr

/-- Codes with a pseudo mantissa that the encoding gives: at least five digits (four for negative values), fewer only with
the largest pseudo exponent. -/
def Normal (k v : Nat) : Prop :=
  (100000 < v ∧ v < 1000000) ∨ (k = 15 ∧ v ≤ 100000) ∨ (1004800 < v ∧ v < 1048000) ∨ (k = 15 ∧ 1000000 < v ∧ v ≤ 1004800)

/-- Encoding of a value within the limits of its kind. -/
theorem encode_in {R : Rounding} (hR : Good R) (fuel kind : Nat) (p : ℚ) (hp : Single p) (hk : kind < 15)
    (h2 : ¬ (kind = 2 ∧ p = 0)) (hl : lowVal kind ≤ p) (hh : p ≤ hiVal kind) (hf : factVal kind = 1) (hz : zeroVal R kind ≤ |p|) :
    encodeNew R fuel kind p = pack R fuel kind p := by
  have hinv : invalidKind kind = false := by
    unfold invalidKind
    simp only [Bool.and_eq_false_imp, decide_eq_true_eq]
    omega
  unfold encodeNew
  rw [hinv, hf]
  simp only [Bool.false_eq_true, if_false, mul_one]
  rw [if_neg h2, if_neg (by omega), if_neg (by rw [not_or, not_lt, gt_iff_lt, not_lt]; exact ⟨hl, hh⟩), if_neg (by linarith),
    r8_single hR p hp]

theorem low_high (kind : Nat) : -480000000 ≤ lowVal kind ∧ hiVal kind ≤ 10 ^ 10 := by
  constructor
  · unfold lowVal
    split <;> norm_num
  · unfold hiVal
    split <;> norm_num

theorem valid_small (kk : Nat) (h : validKind kk = true) (hk : kk < 15) :
    factVal kk = 1 ∧ ∀ R : Rounding, zeroVal R kk = 0 ∨ (kk = 6 ∧ zeroVal R kk = 1 ∧ zeroVal2 kk = 1 ∧ lowVal kk = 1) := by
  unfold validKind at h
  have : kk = 0 ∨ kk = 1 ∨ kk = 2 ∨ kk = 3 ∨ kk = 4 ∨ kk = 5 ∨ kk = 6 ∨ kk = 7 ∨ kk = 10 := by
    simp only [Bool.or_eq_true, decide_eq_true_eq, beq_iff_eq] at h
    omega
  rcases this with rfl | rfl | rfl | rfl | rfl | rfl | rfl | rfl | rfl <;> refine ⟨rfl, fun R => ?_⟩
  all_goals first
    | exact Or.inl rfl
    | exact Or.inr ⟨rfl, rfl, rfl, rfl⟩

/-- **C48** (stability).  A code with a normal pseudo mantissa decodes to a value that is encoded to the same code.  Missing:
pseudo mantissas at the limits, see `C48_stable_witness`; smallest values of kinds 6, 17 and 21 and zero pressure. -/
theorem C48_stable_partial {R : Rounding} (hR : Good R) (fuel kk k v kind : Nat) (p : ℚ) (hk : k < 16) (hkk : kk < 15)
    (hn : Normal k v) (hb : 32767 < kk * 2 ^ 24 + k * 2 ^ 20 + v)
    (hd : decode R ((kk * 2 ^ 24 + k * 2 ^ 20 + v : Nat) : Int) = ((kind : Int), p))
    (h6 : kind = 6 ∨ kind = 17 → p ≠ 1) (h21 : kind = 2 ∨ kind = 21 → p ≠ 0) :
    encodeNew R (fuel + 14) kind p = some ((kk * 2 ^ 24 + k * 2 ^ 20 + v : Nat) : Int) := by
  have hv : v < 2 ^ 20 := by
    unfold Normal at hn
    omega
  rw [← code_eq kk k v hv hk] at hb hd ⊢
  rw [decode_code R kk k v hv hk hkk hb] at hd
  obtain ⟨M, hM⟩ : ∃ M : Int, M = if ((v : Nat) : Int) > 1000000 then -((v : Int) - 1000000) else v := ⟨_, rfl⟩
  rw [← hM] at hd
  have hMv : (M = v ∧ ((100000 < v ∧ v < 1000000) ∨ (k = 15 ∧ v ≤ 100000))) ∨ ∃ m : Nat, M = -(m : Int) ∧ v = 1000000 + m ∧ 1 ≤ m ∧
      ((4800 < m ∧ m < 48000) ∨ (k = 15 ∧ m ≤ 4800)) := by
    unfold Normal at hn
    by_cases h : v ≤ 1000000
    · left
      rw [if_neg (by omega)] at hM
      exact ⟨hM, by omega⟩
    · right
      rw [if_pos (by omega)] at hM
      exact ⟨v - 1000000, by omega, by omega, by omega, by omega⟩
  have hMab : |(M : ℚ)| ≤ 1000000 := by
    rw [← Int.cast_abs]
    have : |M| ≤ 1000000 := by
      rw [abs_le]
      constructor <;> omega
    exact_mod_cast this
  have hraw := raw_near hR M k (by omega)
  have hrs := raw_single hR (M : ℚ) k
  unfold dec at hd
  by_cases hval : validKind kk = true
  · obtain ⟨hf, hz⟩ := valid_small kk hval hkk
    rw [hval, value_raw hR kk M k hf] at hd
    simp only [Bool.not_true, Bool.false_eq_true, if_false] at hd
    split at hd
    · rename_i hout
      by_cases hval2 : validKind (kk + 16) = true
      · rw [hval2] at hd
        simp only [Bool.not_true, Bool.false_eq_true, if_false] at hd
        have hk2 : kk = 1 ∨ kk = 5 := by
          unfold validKind at hval hval2
          simp only [Bool.or_eq_true, decide_eq_true_eq, beq_iff_eq] at hval hval2
          omega
        split at hd
        · exfalso
          unfold invalid at hd
          have := (Prod.mk.injEq _ _ _ _).mp hd
          omega
        · rename_i hin
          rw [not_or, not_lt, gt_iff_lt, not_lt] at hin
          rw [clip_id R _ _ hin.1 hin.2] at hd
          have hd1 := ((Prod.mk.injEq _ _ _ _).mp hd).1
          have hd2 := ((Prod.mk.injEq _ _ _ _).mp hd).2
          have hkind : kind = kk + 16 := by omega
          rcases hk2 with rfl | rfl
          · rw [show (1 + 16 : Nat) = 17 from rfl] at *
            have f1 : lowVal 17 = 1 := rfl
            have f2 : zeroVal2 17 = 1 := rfl
            have f3 : zeroVal R 17 = 1 := rfl
            rw [value_neg hR M k] at hin hd2
            rw [f1] at hin
            have hp : p = -raw R M k := by
              split at hd2
              · exfalso
                rw [f2] at hd2
                exact h6 (Or.inr hkind) hd2.symm
              · exact hd2.symm
            rcases hMv with ⟨e, -⟩ | ⟨m, e, e2, m1, e3⟩
            · exfalso
              have : (0 : ℚ) ≤ M := by
                rw [e]
                positivity
              have := raw_nonneg hR M k (by omega) this
              linarith [hin.1]
            · have hP := P_pos k
              have em : (M : ℚ) / P k = -(((m : Int) : ℚ) / P k) := by rw [e]; push_cast; ring
              have hm0 : 0 ≤ ((m : Int) : ℚ) / P k := by positivity
              rw [em, abs_neg, abs_of_nonneg hm0] at hraw
              have hXle : ((m : Int) : ℚ) / P k ≤ 47999 * 10 ^ 4 := by
                rw [div_le_iff₀ hP]
                have h1 : ((m : Int) : ℚ) ≤ 47999 := by
                  have : m ≤ 47999 := by omega
                  exact_mod_cast this
                have h2 : (1 : ℚ) ≤ 10 ^ 4 * P k := by
                  unfold P
                  rw [mul_div_cancel₀ _ (by norm_num : (10 : ℚ) ^ 4 ≠ 0)]
                  exact one_le_pow₀ (by norm_num)
                calc ((m : Int) : ℚ) ≤ 47999 * 1 := by linarith
                  _ ≤ 47999 * (10 ^ 4 * P k) := by linarith
                  _ = _ := by ring
              have hcl : |p - ((m : Int) : ℚ) / P k| ≤ ((m : Int) : ℚ) / P k * (13 / 10 ^ 8) := by
                rw [hp, ← abs_neg]
                rw [show -(-raw R M k - ((m : Int) : ℚ) / P k) = raw R M k - -(((m : Int) : ℚ) / P k) by ring]
                exact hraw
              have hcl' := abs_le.1 hcl
              have hsp : Single p := by rw [hp]; exact single_neg _ hrs
              have henc : encodeNew R (fuel + 14) 17 p = pack R (fuel + 14) 17 (-p) := by
                unfold encodeNew
                have e1 : invalidKind 17 = false := by decide
                have e3 : factVal 17 = -1 := rfl
                have e5 : hiVal 17 = 10000000000 := rfl
                have hp1 : 1 ≤ p := by rw [hp]; exact hin.1
                rw [e1, f3, e3, f1, e5, abs_of_nonneg (by linarith)]
                simp only [Bool.false_eq_true, if_false, mul_neg, mul_one]
                rw [if_neg (by omega), if_neg (by omega), if_neg (by rw [not_or, not_lt, gt_iff_lt, not_lt]; exact ⟨hp1, by linarith [hcl'.2]⟩),
                  if_neg (by linarith), r8_single hR _ (single_neg p hsp)]
              rw [hkind, henc, e2]
              have hp1 : 1 ≤ p := by rw [hp]; exact hin.1
              refine pack_same_neg hR fuel 17 (-p) (by linarith) (by linarith [hcl'.2]) m k (by omega) e3 ?_
              rw [neg_neg]
              linarith
          · rw [show (5 + 16 : Nat) = 21 from rfl] at *
            have f1 : lowVal 21 = 0 := rfl
            have f4 : hiVal 21 = 1000000 := rfl
            have f2 : zeroVal2 21 = 0 := rfl
            have hval21 : value R 21 M k = R.r4 (raw R M k / 10000) := rfl
            rw [hval21] at hin hd2
            rw [f1, f4] at hin
            obtain ⟨w, hw⟩ : ∃ w, w = raw R M k := ⟨_, rfl⟩
            rw [← hw] at hraw hin hd2
            have he4 := hR.e4 (w / 10000)
            obtain ⟨z, hz21⟩ : ∃ z, z = zeroVal R 21 := ⟨_, rfl⟩
            have hzb := r4_bound hR (1001 / 10 ^ 7) (by norm_num)
            have hzd : z = R.r4 (1001 / 10 ^ 7) := by rw [hz21]; rfl
            rw [← hzd] at hzb
            rw [← hz21, abs_of_nonneg hin.1] at hd2
            have hp : p = R.r4 (w / 10000) ∧ R.r4 (R.r4 (1001 / 1000) * z) ≤ p := by
              split at hd2
              · exfalso
                rw [f2] at hd2
                exact h21 (Or.inr hkind) hd2.symm
              · rename_i hge
                rw [← hd2]
                exact ⟨rfl, by linarith⟩
            have hzp : z ≤ p := by
              have hth := thousandth hR
              have hzz : 0 ≤ z := by linarith [hzb.1]
              have ha1 : (1001 / 1000 - 7 / 10 ^ 8) * z ≤ R.r4 (1001 / 1000) * z := mul_le_mul_of_nonneg_right hth.1 hzz
              have := (r4_bound hR (R.r4 (1001 / 1000) * z) (by linarith)).1
              linarith [hp.2]
            have hsp : Single p := by rw [hp.1]; exact (hR.near4 _).1
            have hp6 : p ≤ 1000000 := by rw [hp.1]; exact hin.2
            have hw0 : 0 ≤ w := by
              by_contra hc
              rw [not_le] at hc
              have : p ≤ 0 := by
                rw [hp.1]
                apply r4_le hR 0 _ ⟨0, 0, by norm_num, by norm_num⟩
                rw [abs_zero]
                linarith
              linarith [hzb.1]
            rcases hMv with ⟨e, e3⟩ | ⟨m, e, e2, m1, e3⟩
            · have hx : R.r8 (p * 10000) = p * 10000 := by
                obtain ⟨m, e, hm, he⟩ := hsp
                have := hR.s8 (m * 10000) e (by
                  rw [abs_mul]
                  have : |(10000 : Int)| = 10000 := by norm_num
                  rw [this]
                  omega)
                rw [he, show (m : ℚ) * 2 ^ e * 10000 = ((m * 10000 : Int) : ℚ) * 2 ^ e by push_cast; ring]
                exact this
              have henc : encodeNew R (fuel + 14) 21 p = pack R (fuel + 14) 21 (p * 10000) := by
                unfold encodeNew
                have e1 : invalidKind 21 = false := by decide
                have e3 : factVal 21 = 10000 := rfl
                rw [e1, ← hz21, e3, f1, f4]
                simp only [Bool.false_eq_true, if_false]
                rw [if_neg (by omega), if_neg (by omega),
                  if_neg (by rw [not_or, not_lt, gt_iff_lt, not_lt]; exact ⟨by linarith [hzb.1], hp6⟩),
                  if_neg (by rw [abs_of_nonneg (by linarith [hzb.1])]; linarith), hx]
              rw [hkind, henc]
              refine pack_same_pos hR fuel 21 (p * 10000) (by linarith [hzb.1]) (by linarith) v k (by omega) e3 ?_
              have hm0 : 0 ≤ ((v : Int) : ℚ) / P k := by have := P_pos k; positivity
              rw [e, abs_of_nonneg hm0] at hraw
              rw [← hp.1, abs_of_nonneg (show 0 ≤ w / 10000 by linarith)] at he4
              have a1 := abs_le.1 hraw
              have a2 := abs_le.1 he4
              generalize ((v : Int) : ℚ) / P k = y at *
              rw [abs_le]
              constructor <;> linarith [a1.1, a1.2, a2.1, a2.2]
            · exfalso
              have : (M : ℚ) ≤ 0 := by
                rw [e]
                push_cast
                linarith [show (0 : ℚ) ≤ m by positivity]
              have := raw_nonpos hR M k (by omega) this
              rw [← hw] at this
              have hp0 : p ≤ 0 := by
                rw [hp.1]
                apply r4_le hR 0 _ ⟨0, 0, by norm_num, by norm_num⟩
                rw [abs_zero]
                linarith
              linarith [hzb.1]
      · exfalso
        rw [Bool.not_eq_true] at hval2
        rw [hval2] at hd
        simp only [Bool.not_false, if_true] at hd
        unfold invalid at hd
        have := (Prod.mk.injEq _ _ _ _).mp hd
        omega
    · rename_i hin
      rw [not_or, not_lt, gt_iff_lt, not_lt] at hin
      rw [clip_id R kk _ hin.1 hin.2] at hd
      have hd1 := ((Prod.mk.injEq _ _ _ _).mp hd).1
      have hd2 := ((Prod.mk.injEq _ _ _ _).mp hd).2
      have hkind : kind = kk := by omega
      rw [hkind] at h6 h21 ⊢
      have hp : p = raw R M k ∧ zeroVal R kk ≤ |raw R M k| := by
        rcases hz R with h0 | ⟨h0, h1, h2, h3⟩
        · rw [h0, mul_zero, r4_zero hR, if_neg (by rw [not_lt]; exact abs_nonneg _)] at hd2
          exact ⟨hd2.symm, by rw [h0]; exact abs_nonneg _⟩
        · split at hd2
          · exfalso
            rw [h2] at hd2
            exact h6 (Or.inl h0) hd2.symm
          · refine ⟨hd2.symm, ?_⟩
            rw [h1]
            rw [h3] at hin
            exact le_trans hin.1 (le_abs_self _)
      have hlh := low_high kk
      have hpl : lowVal kk ≤ p := by rw [hp.1]; exact hin.1
      have hph : p ≤ hiVal kk := by rw [hp.1]; exact hin.2
      rw [encode_in hR (fuel + 14) kk p (by rw [hp.1]; exact hrs) hkk (by intro h; exact h21 (Or.inl h.1) h.2) hpl hph hf
        (by rw [hp.1]; exact hp.2)]
      have e16 : kk % 16 = kk := Nat.mod_eq_of_lt (by omega)
      rcases hMv with ⟨e, e3⟩ | ⟨m, e, e2, m1, e3⟩
      · have hm0 : 0 ≤ ((v : Int) : ℚ) / P k := by have := P_pos k; positivity
        have hr0 := raw_nonneg hR M k (by omega) (by rw [e]; positivity)
        rw [e, abs_of_nonneg hm0] at hraw
        rw [e] at hr0 hp
        have := pack_same_pos hR fuel kk p (by rw [hp.1]; exact hr0) (by linarith) v k (by omega) e3 (by
          rw [hp.1]
          linarith)
        rw [e16] at this
        exact this
      · have em : (M : ℚ) / P k = -(((m : Int) : ℚ) / P k) := by rw [e]; push_cast; ring
        have hm0 : 0 < ((m : Int) : ℚ) / P k := by
          have := P_pos k
          have : (0 : ℚ) < ((m : Int) : ℚ) := by
            have : 0 < m := by omega
            exact_mod_cast this
          positivity
        rw [em, abs_neg, abs_of_pos hm0] at hraw
        have hr := abs_le.1 hraw
        have hcl : |-p - ((m : Int) : ℚ) / P k| ≤ ((m : Int) : ℚ) / P k * (2 / 10 ^ 7) := by
          rw [hp.1, ← abs_neg, show -(-raw R M k - ((m : Int) : ℚ) / P k) = raw R M k - -(((m : Int) : ℚ) / P k) by ring]
          linarith
        have := pack_same_neg hR fuel kk p (by rw [hp.1]; linarith [hr.2]) (by linarith) m k (by omega) e3 hcl
        rw [e16] at this
        rw [e2]
        exact this
  · exfalso
    rw [Bool.not_eq_true] at hval
    rw [hval] at hd
    simp only [Bool.not_false, if_true] at hd
    unfold invalid at hd
    have := (Prod.mk.injEq _ _ _ _).mp hd
    omega

/-! ### Where the claim fails -/

/-- Negative values between -4.9e-12 and 0 come back as a positive value near 1e-5. -/
theorem C48_negative_witness {R : Rounding} (hR : Good R) (fuel : Nat) (p : ℚ) (hp : Single p) (h0 : -(49 / 10 ^ 13) < p) (h1 : p < 0) :
    ∃ ip p', encodeNew R (fuel + 14) 3 p = some ip ∧ decode R ip = (3, p') ∧ 99 / 10 ^ 7 < p' := by
  obtain ⟨T, k, he, hpk⟩ := pack_neg hR fuel 3 p h1 (by linarith)
  have herr := abs_le.1 (ended_err (by norm_num) (by norm_num) (by linarith) he)
  have hk : k = 15 := by
    rcases he.low with h | h
    · exfalso
      have hP : P k ≤ 10 ^ 11 := by
        unfold P
        rw [div_le_iff₀ (by norm_num)]
        have : (10 : ℚ) ^ k ≤ 10 ^ 15 := pow_le_pow_right₀ (by norm_num) he.hk
        linarith
      have : -p * P k ≤ -p * 10 ^ 11 := mul_le_mul_of_nonneg_left hP (by linarith)
      push_cast at h
      linarith [herr.2]
    · exact h
  have e : P k = 10 ^ 11 := by rw [hk]; unfold P; norm_num
  have hT : nint T = 0 := by
    rw [e] at herr
    apply nint_eq
    · push_cast
      linarith [he.pos]
    · push_cast
      linarith [herr.2]
  rw [hT, hk] at hpk
  have henc : encodeNew R (fuel + 14) 3 p = pack R (fuel + 14) 3 p := by
    apply encode_in hR (fuel + 14) 3 p hp (by norm_num) (by norm_num) _ _ rfl (abs_nonneg p)
    · show -480000000 ≤ p
      linarith
    · show p ≤ 10000000000
      linarith
  have hv : (1000000 + 0 : Int).toNat = 1000000 := rfl
  rw [hv, show 3 % 16 = 3 from rfl] at hpk
  have hbig := code_big 3 15 1000000 (by norm_num) (by norm_num) (by norm_num)
  have hr := abs_le.1 (raw_near hR (1000000 : Int) 15 (le_refl _))
  have e2 : ((1000000 : Int) : ℚ) / P 15 = 1 / 10 ^ 5 := by unfold P; norm_num
  rw [e2, abs_of_pos (by norm_num)] at hr
  have r3 : lowVal 3 ≤ raw R (1000000 : Int) 15 := by
    show -480000000 ≤ raw R (1000000 : Int) 15
    generalize raw R (1000000 : Int) 15 = w at *
    linarith [hr.1]
  have r4 : raw R (1000000 : Int) 15 ≤ hiVal 3 := by
    show raw R (1000000 : Int) 15 ≤ 10000000000
    generalize raw R (1000000 : Int) 15 = w at *
    linarith [hr.2]
  refine ⟨_, raw R (1000000 : Int) 15, by rw [henc]; exact hpk, ?_, by generalize raw R (1000000 : Int) 15 = w at *; linarith [hr.1]⟩
  rw [decode_code R 3 15 1000000 (by norm_num) (by norm_num) (by norm_num) hbig, if_neg (by norm_num)]
  exact (dec_first hR 3 1000000 15 (by decide) rfl r3 r4).trans (by rw [clip_zero hR 3 _ rfl r3 r4]; rfl)

/-- 999999.5 is encoded with a pseudo mantissa of 1000000; its decoded value is encoded in another way. -/
theorem C48_stable_witness {R : Rounding} (hR : Good R) (fuel : Nat) :
    ∃ ip ip', encodeNew R (fuel + 14) 3 (1999999 / 2) = some ip ∧ decode R ip = (3, 1000000) ∧
      encodeNew R (fuel + 14) 3 1000000 = some ip' ∧ ip ≠ ip' := by
  have s1 : Single (1999999 / 2) := ⟨1999999, -1, by norm_num, by norm_num⟩
  have s2 : Single 1000000 := ⟨1000000, 0, by norm_num, by norm_num⟩
  refine ⟨((code 3 4 1000000 : Nat) : Int), ((code 3 3 100000 : Nat) : Int), ?_, ?_, ?_, by decide⟩
  · rw [encode_in hR (fuel + 14) 3 _ s1 (by norm_num) (by norm_num) (by norm_num [lowVal]) (by norm_num [hiVal]) rfl (abs_nonneg _)]
    unfold pack
    rw [if_pos (by norm_num), if_pos (by norm_num), if_pos (by norm_num), if_pos (by norm_num)]
    have hn : nint (1999999 / 2) = 1000000 := by unfold nint; norm_num
    simp only [scale_in R 1000000 100000 (fuel + 13) (1999999 / 2) 4 (by norm_num) (by norm_num)]
    rw [if_neg (by norm_num), hn]
    rfl
  · have hbig := code_big 3 4 1000000 (by norm_num) (by norm_num) (by norm_num)
    rw [decode_code R 3 4 1000000 (by norm_num) (by norm_num) (by norm_num) hbig, if_neg (by norm_num)]
    have hr : raw R ((1000000 : Int) : ℚ) 4 = 1000000 := by
      unfold raw exptab
      norm_num
      have := hR.i8 1000000 (by norm_num)
      push_cast at this
      rw [this]
      exact r4_single hR _ s2
    have r3 : lowVal 3 ≤ raw R (1000000 : Int) 4 := by rw [hr]; norm_num [lowVal]
    have r4 : raw R (1000000 : Int) 4 ≤ hiVal 3 := by rw [hr]; norm_num [hiVal]
    refine (dec_first hR 3 1000000 4 (by decide) rfl r3 r4).trans ?_
    rw [clip_zero hR 3 _ rfl r3 r4, hr]
    rfl
  · rw [encode_in hR (fuel + 14) 3 _ s2 (by norm_num) (by norm_num) (by norm_num [lowVal]) (by norm_num [hiVal]) rfl (abs_nonneg _)]
    unfold pack
    rw [if_pos (by norm_num), if_pos (by norm_num), if_pos (by norm_num), if_pos (by norm_num)]
    have h8 : R.r8 (1000000 / 10) = 100000 := by
      have := hR.i8 100000 (by norm_num)
      push_cast at this
      rw [show (1000000 : ℚ) / 10 = 100000 by norm_num, this]
    have hn : nint 100000 = 100000 := by unfold nint; norm_num
    have hs : scale R 1000000 100000 (fuel + 14) 1000000 4 = some (100000, 3) := by
      rw [scale_down R _ _ (fuel + 13) _ _ (by norm_num) (by norm_num) (by norm_num), h8]
      exact scale_in R _ _ (fuel + 12) _ _ (by norm_num) (by norm_num)
    simp only [hs]
    rw [if_neg (by norm_num), hn]
    rfl

/-- Indices over 4.8e8 are within the limits of kind 17 but have no code. -/
theorem C48_index_witness {R : Rounding} (hR : Good R) (fuel : Nat) : encodeNew R (fuel + 14) 17 500000000 = some (-1) := by
  have s1 : Single (-500000000) := ⟨-1953125, 8, by norm_num, by norm_num⟩
  have henc : encodeNew R (fuel + 14) 17 500000000 = pack R (fuel + 14) 17 (-500000000) := by
    unfold encodeNew
    have e1 : invalidKind 17 = false := by decide
    have e2 : zeroVal R 17 = 1 := rfl
    have e3 : factVal 17 = -1 := rfl
    have e4 : lowVal 17 = 1 := rfl
    have e5 : hiVal 17 = 10000000000 := rfl
    rw [e1, e2, e3, e4, e5, abs_of_nonneg (by norm_num)]
    simp only [Bool.false_eq_true, if_false, mul_neg, mul_one]
    rw [if_neg (by omega), if_neg (by omega), if_neg (by norm_num), if_neg (by norm_num), r8_single hR _ s1]
  rw [henc]
  unfold pack
  rw [if_neg (by norm_num), if_neg (by norm_num), if_neg (by norm_num), if_neg (by norm_num), neg_neg]
  have h8 : ∀ a b : ℚ, ∀ n : Int, |n| ≤ 2 ^ 53 → a / 10 = n → (n : ℚ) = b → R.r8 (a / 10) = b := by
    intro a b n hn e1 e2
    rw [e1, hR.i8 n hn, e2]
  have hs : scale R 48000 4800 (fuel + 14) 500000000 4 = some (50000, 0) := by
    rw [scale_down R _ _ (fuel + 13) _ _ (by norm_num) (by norm_num) (by norm_num), h8 500000000 50000000 50000000 (by norm_num) (by norm_num) (by norm_num),
      scale_down R _ _ (fuel + 12) _ _ (by norm_num) (by norm_num) (by norm_num), h8 50000000 5000000 5000000 (by norm_num) (by norm_num) (by norm_num),
      scale_down R _ _ (fuel + 11) _ _ (by norm_num) (by norm_num) (by norm_num), h8 5000000 500000 500000 (by norm_num) (by norm_num) (by norm_num),
      scale_down R _ _ (fuel + 10) _ _ (by norm_num) (by norm_num) (by norm_num), h8 500000 50000 50000 (by norm_num) (by norm_num) (by norm_num)]
    exact scale_stop R _ _ (fuel + 9) _ _ (by norm_num)
  simp only [hs]
  rw [if_pos (by norm_num)]

/-- Kinds that are not defined are encoded without an error, but their codes are not valid. -/
theorem C48_kind_witness {R : Rounding} (hR : Good R) (fuel : Nat) (p : ℚ) (hp : Single p) (h0 : 0 ≤ p) (h1 : p ≤ 10 ^ 10) :
    ∃ ip, encodeNew R (fuel + 14) 8 p = some ip ∧ decode R ip = (-1, -999999) := by
  obtain ⟨M, k, ip, hk, m0, m1, e1, e2, -⟩ := core_pos hR fuel 8 p h0 h1 (by norm_num) (by norm_num)
  refine ⟨ip, ?_, ?_⟩
  · rw [encode_in hR (fuel + 14) 8 p hp (by norm_num) (by norm_num) _ _ rfl (abs_nonneg p)]
    · exact e1
    · show -480000000 ≤ p
      linarith
    · show p ≤ 10000000000
      linarith
  · rw [e2]
    rfl

/-! ### Examples -/

example : Codable 2 (17 / 2) ∧ Single (17 / 2) ∧ ¬ (-(51 / 10 ^ 13) < (17 / 2 : ℚ) ∧ (17 / 2 : ℚ) < 0) := by
  refine ⟨?_, ⟨17, -1, by norm_num, by norm_num⟩, by norm_num⟩
  unfold Codable
  norm_num

/-- 850.5 mb: pseudo mantissa 850500 with three decimals. -/
example : encodeNew ⟨id, id⟩ 20 2 (1701 / 2) = some (2 * 2 ^ 24 + 7 * 2 ^ 20 + 850500) := by decide +kernel

example : decode ⟨id, id⟩ (2 * 2 ^ 24 + 7 * 2 ^ 20 + 850500) = (2, 1701 / 2) := by decide +kernel

example : Normal 7 850500 ∧ Normal 15 1004000 := by unfold Normal; omega

/-- Two negative heights, a large value of kind 21 and one of kind 17. -/
example : encodeNew ⟨id, id⟩ 20 0 (-150) = some (0 * 2 ^ 24 + 6 * 2 ^ 20 + 1015000) ∧
    decode ⟨id, id⟩ (0 * 2 ^ 24 + 6 * 2 ^ 20 + 1015000) = (0, -150) ∧
    decode ⟨id, id⟩ (5 * 2 ^ 24 + 1 * 2 ^ 20 + 250000) = (21, 25000) ∧
    decode ⟨id, id⟩ (1 * 2 ^ 24 + 6 * 2 ^ 20 + 1012300) = (17, 123) := by decide +kernel

end Props.Convip
