import Verif.CompactFloatLemmas
import Verif.Props.Grid
import Verif.CompactIntegerRound

/-!
# C59: quantised packing of single precision fields
-/
namespace Props.CompactFloat

open Verif Verif.CompactFloat
open Verif.FloatPacker (F32 val expo frac neg mk)
open Verif.Grid (Rounding)

/-- What is assumed of the roundings to double (`r8`) and to single precision (`r4`): accuracy within the range of the
type, monotonicity, and exactness on single precision numbers. -/
structure Prec (R : Rounding) : Prop where
  e8 : ∀ x, |x| ≤ 2 ^ 200 → |R.r8 x - x| ≤ |x| / 2 ^ 53 + 1 / 2 ^ 250
  e4 : ∀ x, |x| ≤ 2 ^ 127 → |R.r4 x - x| ≤ |x| / 2 ^ 24 + 1 / 2 ^ 150
  m8 : ∀ x y, x ≤ y → R.r8 x ≤ R.r8 y
  m4 : ∀ x y, x ≤ y → R.r4 x ≤ R.r4 y
  x8 : ∀ f : F32, expo f < 255 → R.r8 (fval f) = fval f
  x4 : ∀ f : F32, expo f < 255 → R.r4 (fval f) = fval f

/-- Largest magnitude considered, below the limit of 10^38 of the packer. -/
def big : ℚ := 99 * 10 ^ 36

theorem fval_le {x y : F32} : fval x ≤ fval y ↔ val x ≤ val y := by
  unfold fval
  rw [div_le_div_iff_of_pos_right (by positivity)]
  exact_mod_cast Iff.rfl

theorem fval_eq {x y : F32} : fval x = fval y ↔ val x = val y := by
  rw [le_antisymm_iff, le_antisymm_iff, fval_le, fval_le]

theorem finite_of_big {x : F32} (h : |fval x| ≤ big) : expo x < 255 := by
  by_contra hc
  have he : expo x = 255 := by have := Props.FloatPacker.expo_lt x; omega
  have hv := Props.FloatPacker.natAbs_val x
  rw [if_neg (by omega), he] at hv
  have hn : 2 ^ 128 * 2 ^ 149 ≤ (val x).natAbs := by
    rw [hv, show 2 ^ 128 * 2 ^ 149 = 2 ^ 23 * 2 ^ (255 - 1) by rw [← Nat.pow_add, ← Nat.pow_add]]
    exact Nat.mul_le_mul_right _ (by omega)
  have hn' : (2 : ℚ) ^ 128 * 2 ^ 149 ≤ |(val x : ℚ)| := by
    have : ((2 ^ 128 * 2 ^ 149 : Nat) : ℚ) ≤ ((val x).natAbs : ℚ) := by exact_mod_cast hn
    rw [Nat.cast_natAbs, Int.cast_abs] at this
    rw [Nat.cast_mul, Nat.cast_pow, Nat.cast_pow] at this
    exact_mod_cast this
  unfold fval big at h
  rw [abs_div, abs_of_pos (show (0 : ℚ) < 2 ^ 149 by positivity), div_le_iff₀ (by positivity)] at h
  have : (99 * 10 ^ 36 * 2 ^ 149 : ℚ) < 2 ^ 128 * 2 ^ 149 := mul_lt_mul_of_pos_right (by norm_num) (by positivity)
  linarith

/-- Differences of floats are multiples of 2^-149. -/
theorem diff_small (x y : F32) (h : val y < val x) : 1 / 2 ^ 149 ≤ fval x - fval y := by
  unfold fval
  rw [← sub_div]
  apply div_le_div_of_nonneg_right _ (by positivity)
  have : val y + 1 ≤ val x := by omega
  have : ((val y + 1 : Int) : ℚ) ≤ ((val x : Int) : ℚ) := by exact_mod_cast this
  push_cast at this
  linarith

theorem r8_zero {R : Rounding} (hR : Prec R) : R.r8 0 = 0 := by
  have := hR.x8 0#32 (by decide)
  have e : fval 0#32 = 0 := by unfold fval; rw [show val 0#32 = 0 by decide]; simp
  rwa [e] at this

/-- Accuracy of a rounded difference. -/
theorem diff_err {R : Rounding} (hR : Prec R) (x y : F32) (hx : |fval x| ≤ big) (hy : |fval y| ≤ big) (h : val y ≤ val x) :
    |R.r8 (fval x - fval y) - (fval x - fval y)| ≤ (fval x - fval y) / 2 ^ 52 := by
  rcases eq_or_lt_of_le h with h' | h'
  · have e : fval x - fval y = 0 := by rw [fval_eq.2 h']; ring
    rw [e, r8_zero hR]
    simp
  · have hd := diff_small x y h'
    set t := fval x - fval y
    have h0 : (0 : ℚ) < 1 / 2 ^ 149 := by positivity
    have ht : |t| = t := abs_of_pos (by linarith)
    have hb : t ≤ 2 * big := by
      have := abs_le.1 hx
      have := abs_le.1 hy
      linarith
    have hbb : 2 * big ≤ 2 ^ 200 := by unfold big; norm_num
    have := hR.e8 t (by rw [ht]; linarith)
    rw [ht] at this
    have hs : (1 : ℚ) / 2 ^ 250 ≤ (1 / 2 ^ 149) / 2 ^ 53 := by norm_num
    have : (1 / 2 ^ 149) / 2 ^ 53 ≤ t / 2 ^ 53 := by gcongr
    linarith

theorem c_near {R : Rounding} (hR : Prec R) : |R.r8 (10000000000001 / 10 ^ 13) - 1| ≤ 1 / 2 ^ 43 := by
  have := hR.e8 (10000000000001 / 10 ^ 13) (by rw [abs_of_pos (by positivity)]; norm_num)
  rw [abs_of_pos (show (0 : ℚ) < 10000000000001 / 10 ^ 13 by positivity)] at this
  rw [abs_le] at this ⊢
  have e : (10000000000001 / 10 ^ 13 : ℚ) / 2 ^ 53 + 1 / 2 ^ 250 + 1 / 10 ^ 13 ≤ 1 / 2 ^ 43 := by norm_num
  constructor <;> linarith

/-- Value rebuilt from a token that is not the one of a missing value. -/
def rebuilt (R : Rounding) (s mn : ℚ) (k : Nat) : ℚ :=
  if k = 0 then mn else R.r4 (R.r8 (R.r8 ((k : ℚ) * s * R.r8 (10000000000001 / 10 ^ 13)) + mn))

theorem rebuilt_err {R : Rounding} (hR : Prec R) (x mn s D : ℚ) (k : Nat) (hs : 0 < s) (h0 : (k : ℚ) * s ≤ D)
    (h1 : D < (k + 1) * s) (hD : |D - (x - mn)| ≤ (x - mn) / 2 ^ 52) (hx : |x| ≤ big) (hm : |mn| ≤ big) (hle : mn ≤ x) :
    |rebuilt R s mn k - x| ≤ s * (1 + 1 / 2 ^ 23) + |x| * (1 / 2 ^ 24 + 1 / 2 ^ 50) + (x - mn) / 2 ^ 41 + 1 / 2 ^ 149 := by
  have hax := abs_nonneg x
  have ht0 : 0 ≤ x - mn := by linarith
  have hxb := abs_le.1 hx
  have hmb := abs_le.1 hm
  have htb : x - mn ≤ 2 * big := by linarith
  set t := x - mn with ht
  rw [abs_le] at hD
  unfold rebuilt
  split
  · rename_i hk
    subst hk
    rw [abs_sub_comm, ← ht, abs_of_nonneg ht0]
    have : (0 : ℚ) < 1 / 2 ^ 149 := by positivity
    have : 0 ≤ |x| * (1 / 2 ^ 24 + 1 / 2 ^ 50) := by positivity
    norm_num at h1
    linarith
  · set A : ℚ := (k : ℚ) * s with hA
    have hA0 : 0 ≤ A := by positivity
    have hAD : D < A + s := by rw [hA]; linarith
    have hc := c_near hR
    set c := R.r8 (10000000000001 / 10 ^ 13)
    have hAc : |A * c - A| ≤ A * (1 / 2 ^ 43) := by
      rw [show A * c - A = A * (c - 1) by ring, abs_mul, abs_of_nonneg hA0]
      exact mul_le_mul_of_nonneg_left hc hA0
    rw [abs_le] at hAc hc
    have hAc0 : 0 ≤ A * c := mul_nonneg hA0 (by linarith [show (1 : ℚ) / 2 ^ 43 ≤ 1 by norm_num])
    have hbig : big ≤ 2 ^ 127 / (17 / 10) := by unfold big; norm_num
    have hbig0 : (0 : ℚ) < big := by unfold big; norm_num
    have hp1 : (2 : ℚ) ^ 127 * 100 ≤ 2 ^ 200 := by norm_num
    have hp := hR.e8 (A * c) (by rw [abs_of_nonneg hAc0]; linarith)
    rw [abs_of_nonneg hAc0, abs_le] at hp
    set p := R.r8 (A * c)
    set ε : ℚ := 1 / 2 ^ 250 with hε
    have hε0 : 0 < ε := by positivity
    have hε1 : ε ≤ 1 / 2 ^ 240 := by rw [hε]; norm_num
    have hpt : |p - t| ≤ s + t / 2 ^ 42 + ε := by
      rw [abs_le]
      constructor <;> linarith
    have hpx : |(p + mn) - x| ≤ s + t / 2 ^ 42 + ε := by
      rw [show p + mn - x = p - t by rw [ht]; ring]
      exact hpt
    have hup : p ≤ t + t / 2 ^ 42 + ε := by linarith
    have hlo : 0 ≤ p + ε := by
      have h1 := hp.1
      have h2 : A * c / 2 ^ 53 ≤ A * c := div_le_self hAc0 (by norm_num)
      clear_value A c p t ε
      clear hpt hpx hup hε1 hε hp1 hbig hbig0 hAc hc hD hp htb hxb hmb
      linarith
    have hb2 : 1 / 2 ^ 240 ≤ big / 1000 := by unfold big; norm_num
    have hz : |p + mn| ≤ 2 ^ 127 / (16 / 10) := by
      rw [abs_le]
      constructor <;> linarith
    have hq := hR.e8 (p + mn) (by linarith)
    have hzx : |p + mn| ≤ |x| + (s + t / 2 ^ 42 + ε) := by
      have := abs_sub_abs_le_abs_sub (p + mn) x
      linarith
    set q := R.r8 (p + mn)
    have hqx : |q - x| ≤ (s + t / 2 ^ 42 + ε) + ((|x| + (s + t / 2 ^ 42 + ε)) / 2 ^ 53 + ε) := by
      have := abs_sub_le q (p + mn) x
      linarith
    have hqq : |q| ≤ |p + mn| + (|p + mn| / 2 ^ 53 + ε) := by
      have := abs_sub_abs_le_abs_sub q (p + mn)
      linarith
    have hr := hR.e4 q (by linarith)
    have hqx' : |q| ≤ |x| + |q - x| := by
      have := abs_sub_abs_le_abs_sub q x
      linarith
    have hfin := abs_sub_le (R.r4 q) q x
    have hε2 : ε * 4 ≤ 1 / 2 ^ 150 := by rw [hε]; norm_num
    have e149 : (1 : ℚ) / 2 ^ 149 = 2 * (1 / 2 ^ 150) := by norm_num
    rw [e149]
    linarith

theorem rebuilt_ge {R : Rounding} (hR : Prec R) (mn : F32) (hm : |fval mn| ≤ big) (s : ℚ) (hs : 0 < s) (k : Nat) :
    fval mn ≤ rebuilt R s (fval mn) k := by
  unfold rebuilt
  split
  · exact le_refl _
  · have hc := abs_le.1 (c_near hR)
    have hc0 : 0 ≤ R.r8 (10000000000001 / 10 ^ 13) := by linarith [show (1 : ℚ) / 2 ^ 43 ≤ 1 by norm_num]
    have hp := hR.m8 0 ((k : ℚ) * s * R.r8 (10000000000001 / 10 ^ 13)) (by positivity)
    rw [r8_zero hR] at hp
    have hq := hR.m8 (fval mn) (R.r8 ((k : ℚ) * s * R.r8 (10000000000001 / 10 ^ 13)) + fval mn) (by linarith)
    rw [hR.x8 mn (finite_of_big hm)] at hq
    have := hR.m4 _ _ hq
    rwa [hR.x4 mn (finite_of_big hm)] at this

theorem rebuilt_mono {R : Rounding} (hR : Prec R) (mn : F32) (hm : |fval mn| ≤ big) (s : ℚ) (hs : 0 < s) (k l : Nat)
    (h : k ≤ l) : rebuilt R s (fval mn) k ≤ rebuilt R s (fval mn) l := by
  by_cases hk : k = 0
  · have := rebuilt_ge hR mn hm s hs l
    rw [show rebuilt R s (fval mn) k = fval mn by unfold rebuilt; rw [if_pos hk]]
    exact this
  · unfold rebuilt
    rw [if_neg hk, if_neg (by omega)]
    have hc := abs_le.1 (c_near hR)
    have hc0 : 0 ≤ R.r8 (10000000000001 / 10 ^ 13) := by linarith [show (1 : ℚ) / 2 ^ 43 ≤ 1 by norm_num]
    have hkl : (k : ℚ) ≤ l := by exact_mod_cast h
    apply hR.m4
    apply hR.m8
    have : R.r8 ((k : ℚ) * s * R.r8 (10000000000001 / 10 ^ 13)) ≤ R.r8 ((l : ℚ) * s * R.r8 (10000000000001 / 10 ^ 13)) := by
      apply hR.m8
      gcongr
    linarith

/-! ### The exponent of the range and the tokens -/

theorem floor_eq_miss (z : ℚ) (b : Nat) (hb : b ≤ 32) (h0 : 0 ≤ z) (h1 : z < 2 ^ b) :
    (BitVec.ofInt 32 ⌊z⌋).toNat = ⌊z⌋.toNat ∧ ⌊z⌋.toNat < 2 ^ b ∧ ((⌊z⌋.toNat : ℚ) ≤ z ∧ z < ⌊z⌋.toNat + 1) := by
  have hf0 : 0 ≤ ⌊z⌋ := Int.floor_nonneg.2 h0
  have hf1 : ⌊z⌋ < 2 ^ b := by
    rw [Int.floor_lt]
    push_cast
    exact h1
  have hpb : (2 : Int) ^ b ≤ 2 ^ 32 := by
    have : 2 ^ b ≤ 2 ^ 32 := Nat.pow_le_pow_right (by omega) hb
    exact_mod_cast this
  have hc : ((⌊z⌋.toNat : Int) : ℚ) = ((⌊z⌋ : Int) : ℚ) := by rw [Int.toNat_of_nonneg hf0]
  refine ⟨?_, ?_, ?_⟩
  · rw [BitVec.toNat_ofInt, Int.emod_eq_of_lt hf0 (by push_cast; omega)]
  · have : ((⌊z⌋.toNat : Nat) : Int) < ((2 ^ b : Nat) : Int) := by rw [Int.toNat_of_nonneg hf0]; exact_mod_cast hf1
    exact_mod_cast this
  · have h1 := Int.floor_le z
    have h2 := Int.lt_floor_add_one z
    rw [← hc] at h1 h2
    exact ⟨by exact_mod_cast h1, by exact_mod_cast h2⟩

theorem miss_toNat (b : Nat) (hb : b ≤ 32) : (missTok b).toNat = 2 ^ b - 1 := by
  unfold missTok
  rw [BitVec.toNat_ofNat, Nat.mod_eq_of_lt]
  have : 2 ^ b ≤ 2 ^ 32 := Nat.pow_le_pow_right (by omega) hb
  have : 0 < 2 ^ b := by positivity
  omega

/-- The exponent: the range fits, its power of two is at most twice the range (a little more with missing values), and the
token of the largest value is not the one of missing values. -/
theorem packExp_spec (tag : Option F32) (D : ℚ) (b : Nat) (hb1 : 1 ≤ b) (hb : b ≤ 32) (hD : 0 < D) :
    D < 2 ^ packExp tag D b ∧ (2 : ℚ) ^ packExp tag D b * (2 ^ b - 1) ≤ 2 * D * 2 ^ b ∧
      (tag.isSome → D * 2 ^ b / 2 ^ packExp tag D b < 2 ^ b - 1) ∧
      Int.log 2 D + 1 ≤ packExp tag D b ∧ packExp tag D b ≤ Int.log 2 D + 2 := by
  have hlo := Int.zpow_log_le_self (b := 2) (by norm_num) hD
  have hhi := Int.lt_zpow_succ_log_self (b := 2) (by norm_num) D
  push_cast at hlo hhi
  have hre : rangeExp D = Int.log 2 D + 1 := by unfold rangeExp; rw [if_neg hD.ne']
  have hpb : (2 : ℚ) ≤ 2 ^ b := by
    calc (2 : ℚ) = 2 ^ 1 := by norm_num
      _ ≤ 2 ^ b := pow_le_pow_right₀ (by norm_num) hb1
  have h2e : (2 : ℚ) ^ (Int.log 2 D + 1) ≤ 2 * D := by
    rw [zpow_add_one₀ (by norm_num)]
    linarith
  have hpe : (0 : ℚ) < 2 ^ (Int.log 2 D + 1) := zpow_pos (by norm_num) _
  set E : ℚ := 2 ^ (Int.log 2 D + 1) with hE
  have hz0 : 0 ≤ D * 2 ^ b / E := by positivity
  have hz1 : D * 2 ^ b / E < 2 ^ b := by
    rw [div_lt_iff₀ hpe, mul_comm]
    exact mul_lt_mul_of_pos_left hhi (by positivity)
  obtain ⟨f1, f2, f3, f4⟩ := floor_eq_miss _ b hb hz0 hz1
  have hcast : ((2 ^ b - 1 : Nat) : ℚ) = 2 ^ b - 1 := by
    rw [Nat.cast_sub (Nat.one_le_two_pow)]
    push_cast
    ring
  unfold packExp
  rw [hre]
  by_cases hc : rawTok D b (Int.log 2 D + 1) = missTok b
  · have hk : ⌊D * 2 ^ b / E⌋.toNat = 2 ^ b - 1 := by
      have := congrArg BitVec.toNat hc
      rw [miss_toNat b hb] at this
      unfold rawTok at this
      rw [← hE, f1] at this
      exact this
    have hge : (2 : ℚ) ^ b - 1 ≤ D * 2 ^ b / E := by rw [← hcast, ← hk]; exact f3
    rw [le_div_iff₀ hpe] at hge
    by_cases ht : tag.isSome
    · rw [if_pos ⟨ht, hc⟩]
      have e2 : (2 : ℚ) ^ (Int.log 2 D + 1 + 1) = 2 * E := by rw [zpow_add_one₀ (by norm_num)]; ring
      rw [e2]
      refine ⟨by linarith, by linarith, ?_, by omega, by omega⟩
      intro _
      rw [div_lt_iff₀ (by positivity)]
      have hEb : D * 2 ^ b < E * 2 ^ b := mul_lt_mul_of_pos_right hhi (by positivity)
      have : E * 2 ^ b ≤ (2 ^ b - 1) * (2 * E) := by
        have := mul_le_mul_of_nonneg_left hpb hpe.le
        linarith
      linarith
    · rw [if_neg (fun h => ht h.1)]
      refine ⟨hhi, ?_, fun h => absurd h ht, by omega, by omega⟩
      have := mul_le_mul_of_nonneg_right h2e (show (0 : ℚ) ≤ 2 ^ b by positivity)
      linarith
  · rw [if_neg (fun h => hc h.2)]
    refine ⟨hhi, ?_, ?_, by omega, by omega⟩
    · have := mul_le_mul_of_nonneg_right h2e (show (0 : ℚ) ≤ 2 ^ b by positivity)
      linarith
    · intro _
      have hne : ⌊D * 2 ^ b / E⌋.toNat ≠ 2 ^ b - 1 := by
        intro h
        apply hc
        apply BitVec.eq_of_toNat_eq
        rw [miss_toNat b hb]
        unfold rawTok
        rw [← hE, f1, h]
      have : ⌊D * 2 ^ b / E⌋.toNat + 1 ≤ 2 ^ b - 1 := by omega
      have : ((⌊D * 2 ^ b / E⌋.toNat + 1 : Nat) : ℚ) ≤ ((2 ^ b - 1 : Nat) : ℚ) := by exact_mod_cast this
      rw [hcast] at this
      push_cast at this
      linarith

theorem packExp_zero (tag : Option F32) (b : Nat) (hb1 : 1 ≤ b) (hb : b ≤ 32) : packExp tag 0 b = 0 := by
  unfold packExp
  rw [if_neg]
  · unfold rangeExp; rw [if_pos rfl]
  · rintro ⟨-, h⟩
    have := congrArg BitVec.toNat h
    rw [miss_toNat b hb] at this
    unfold rawTok at this
    have h2 : 2 ^ 1 ≤ 2 ^ b := Nat.pow_le_pow_right (by omega) hb1
    simp at this
    omega

/-! ### The extreme values -/

theorem minMax_spec (xs : List F32) : ∀ mn mx : F32, val mn ≤ val mx →
    ((minMax mn mx xs).1 = mn ∨ (minMax mn mx xs).1 ∈ xs) ∧ ((minMax mn mx xs).2 = mx ∨ (minMax mn mx xs).2 ∈ xs) ∧
      val (minMax mn mx xs).1 ≤ val mn ∧ val mx ≤ val (minMax mn mx xs).2 ∧
      ∀ x ∈ xs, val (minMax mn mx xs).1 ≤ val x ∧ val x ≤ val (minMax mn mx xs).2 := by
  induction xs with
  | nil => intro mn mx _; exact ⟨Or.inl rfl, Or.inl rfl, le_refl _, le_refl _, by simp⟩
  | cons a xs ih =>
    intro mn mx h
    simp only [minMax]
    by_cases h1 : val a < val mn
    · rw [if_pos h1]
      obtain ⟨i1, i2, i3, i4, i5⟩ := ih a mx (by omega)
      refine ⟨?_, ?_, by omega, by omega, ?_⟩
      · rcases i1 with i | i
        · right; rw [i]; exact List.mem_cons_self
        · right; exact List.mem_cons_of_mem _ i
      · rcases i2 with i | i
        · left; exact i
        · right; exact List.mem_cons_of_mem _ i
      · intro x hx
        rcases List.mem_cons.1 hx with rfl | hx
        · exact ⟨i3, by omega⟩
        · exact i5 x hx
    · rw [if_neg h1]
      by_cases h2 : val a > val mx
      · rw [if_pos h2]
        obtain ⟨i1, i2, i3, i4, i5⟩ := ih mn a (by omega)
        refine ⟨?_, ?_, by omega, by omega, ?_⟩
        · rcases i1 with i | i
          · left; exact i
          · right; exact List.mem_cons_of_mem _ i
        · rcases i2 with i | i
          · right; rw [i]; exact List.mem_cons_self
          · right; exact List.mem_cons_of_mem _ i
        · intro x hx
          rcases List.mem_cons.1 hx with rfl | hx
          · exact ⟨by omega, i4⟩
          · exact i5 x hx
      · rw [if_neg h2]
        obtain ⟨i1, i2, i3, i4, i5⟩ := ih mn mx h
        refine ⟨?_, ?_, by omega, by omega, ?_⟩
        · rcases i1 with i | i
          · left; exact i
          · right; exact List.mem_cons_of_mem _ i
        · rcases i2 with i | i
          · left; exact i
          · right; exact List.mem_cons_of_mem _ i
        · intro x hx
          rcases List.mem_cons.1 hx with rfl | hx
          · exact ⟨by omega, by omega⟩
          · exact i5 x hx

theorem extremes_spec (tag : Option F32) (xs : List F32) (x0 : F32) (hx0 : x0 ∈ xs) (hp0 : missing tag x0 = false) :
    ∃ a z, extremes tag xs = some (a, z) ∧ (a ∈ xs ∧ missing tag a = false) ∧ (z ∈ xs ∧ missing tag z = false) ∧
      ∀ x ∈ xs, missing tag x = false → val a ≤ val x ∧ val x ≤ val z := by
  unfold extremes
  have hmem : ∀ x, x ∈ xs.filter (fun x => !missing tag x) ↔ x ∈ xs ∧ missing tag x = false := by
    intro x
    rw [List.mem_filter]
    simp
  cases hl : xs.filter (fun x => !missing tag x) with
  | nil =>
    have := (hmem x0).2 ⟨hx0, hp0⟩
    rw [hl] at this
    simp at this
  | cons a l =>
    rw [hl] at hmem
    obtain ⟨i1, i2, i3, i4, i5⟩ := minMax_spec l a a (le_refl _)
    refine ⟨(minMax a a l).1, (minMax a a l).2, rfl, (hmem _).1 ?_, (hmem _).1 ?_, ?_⟩
    · rcases i1 with i | i
      · rw [i]; exact List.mem_cons_self
      · exact List.mem_cons_of_mem _ i
    · rcases i2 with i | i
      · rw [i]; exact List.mem_cons_self
      · exact List.mem_cons_of_mem _ i
    · intro x hx hp
      rcases List.mem_cons.1 ((hmem x).2 ⟨hx, hp⟩) with rfl | hx
      · exact ⟨i3, i4⟩
      · exact i5 x hx

theorem normal_of_val {x y : F32} (h : val x = val y) (hx : val x = 0 ∨ 1 ≤ expo x) : val y = 0 ∨ 1 ≤ expo y := by
  rcases hx with hx | hx
  · left; omega
  · right
    by_contra hc
    have h1 := Props.FloatPacker.natAbs_val x
    have h2 := Props.FloatPacker.natAbs_val y
    rw [if_neg (by omega)] at h1
    rw [if_pos (by omega)] at h2
    have hf := Props.FloatPacker.frac_lt y
    have hp : 1 ≤ 2 ^ (expo x - 1) := Nat.one_le_two_pow
    have := Nat.mul_le_mul (show 2 ^ 23 ≤ 2 ^ 23 + frac x by omega) hp
    rw [h] at h1
    omega

/-! ### Stream and header -/

/-- Tokens and header written by the packer are those read by the unpacker, and nothing else is touched. -/
theorem stream (u : W) (ts : List W) (n b : Nat) (hb1 : 1 ≤ b) (hb : b ≤ 32) (hlt : ∀ t ∈ ts, t.toNat < 2 ^ b) (m : List W)
    (pos : Nat) (hroom : pos + ts.length * b < 32 * m.length) (hn : n = ts.length) :
    ∃ d, pack ts n 1 b pos (.raw 0) (BitVec.allOnes 32) m = some d ∧ d.length = m.length ∧
      (memBits d).take pos = (memBits m).take pos ∧
      (memBits d).drop (pos + ts.length * b) = (memBits m).drop (pos + ts.length * b) ∧
      unpack u d n 1 b pos (.raw 0) (List.replicate n 0#32) = some ts := by
  subst hn
  have hw : ∀ x : W, (TokKind.raw 0).written b pos (BitVec.allOnes 32) (x.setWidth 32) = x := by
    intro x
    unfold TokKind.written TokKind.tok
    split
    · simp
    · rw [BitVec.and_allOnes]
      simp
  have hst : Strided ts 1 ts := by
    intro j hj
    rw [Nat.mul_one]
    exact List.getElem?_eq_getElem hj
  have htok : ∀ x ∈ ts, ((TokKind.raw 0).written b pos (BitVec.allOnes 32) (x.setWidth 32)).toNat < 2 ^ b := by
    intro x hx
    rw [hw]
    exact hlt x hx
  obtain ⟨d, e, l, bd⟩ := pack_spec (kind := .raw 0) (mask := BitVec.allOnes 32) (off := pos) (dst := m) hb hst htok (by omega)
  obtain ⟨d', o, e', l', eo, lo, so, -⟩ := pack_unpack u (kind := .raw 0) (ukind := .raw 0) (mask := BitVec.allOnes 32)
    (off := pos) (dst := m) (out := List.replicate ts.length 0#32) hb1 hb (le_refl 1) hst htok hroom (by
      intro j hj
      rw [List.length_replicate]
      omega)
  have hdd : d' = d := by rw [e] at e'; injection e' with e'; exact e'.symm
  subst hdd
  have hm : (memBits m).length = 32 * m.length := memBits_length m
  refine ⟨d', e, l, ?_, ?_, ?_⟩
  · rw [bd, List.append_assoc, List.take_append_of_le_length (by rw [List.length_take]; omega), List.take_take, Nat.min_self]
  · rw [bd, List.append_assoc, ← List.drop_drop, List.drop_append_of_le_length (by rw [List.length_take]; omega),
      List.drop_of_length_le (l := List.take pos (memBits m)) (by rw [List.length_take]; omega), List.nil_append,
      List.drop_append_of_le_length (by simp), List.drop_of_length_le (by simp), List.nil_append]
  · rw [eo]
    congr 1
    apply List.ext_getElem?
    intro i
    by_cases hi : i < ts.length
    · have := so i (by simpa using hi)
      rw [Nat.mul_one] at this
      rw [this, List.getElem?_eq_getElem hi]
      congr 1
      rw [List.getElem_map, hw]
      unfold UntokKind.val
      simp
    · rw [List.getElem?_eq_none (by rw [lo, List.length_replicate]; omega), List.getElem?_eq_none (by omega)]

/-- A token that is not the one of missing values. -/
theorem element_present (R : Rounding) (tag : Option F32) (b : Nat) (s mn : ℚ) (t : W) (h : tag.isSome → t ≠ missTok b) :
    element R tag b s mn t = rebuilt R s mn t.toNat := by
  have h0 : t = 0 ↔ t.toNat = 0 := by
    constructor
    · intro h; rw [h]; rfl
    · intro h; apply BitVec.eq_of_toNat_eq; rw [h]; rfl
  unfold element rebuilt
  cases tag with
  | none => dsimp only; rw [if_congr h0 rfl rfl]
  | some g => dsimp only; rw [if_neg (h rfl), if_congr h0 rfl rfl]

theorem scale_eq (b : Nat) (e : Int) (d : ℚ) : d * (2 ^ b / 2 ^ e) = d / 2 ^ (e - b) := by
  rw [zpow_sub₀ (by norm_num), zpow_natCast, div_div_eq_mul_div, mul_div_assoc]

/-- Tokens of values between the extremes. -/
theorem token_spec {R : Rounding} (hR : Prec R) (tag : Option F32) (a z x : F32) (b : Nat) (hb1 : 1 ≤ b) (hb : b ≤ 32)
    (ha : |fval a| ≤ big) (hz : |fval z| ≤ big) (hx : |fval x| ≤ big) (h1 : val a ≤ val x) (h2 : val x ≤ val z)
    (hm : missing tag x = false) (e : Int) (he : e = packExp tag (R.r8 (fval z - fval a)) b) :
    (token R tag a b e x).toNat < 2 ^ b ∧ (tag.isSome → token R tag a b e x ≠ missTok b) ∧
      ((token R tag a b e x).toNat : ℚ) * 2 ^ (e - b) ≤ R.r8 (fval x - fval a) ∧
      R.r8 (fval x - fval a) < ((token R tag a b e x).toNat + 1) * 2 ^ (e - b) ∧
      (token R tag a b e x).toNat = ⌊R.r8 (fval x - fval a) / 2 ^ (e - b)⌋.toNat := by
  have hs : (0 : ℚ) < 2 ^ (e - b) := zpow_pos (by norm_num) _
  have hd0 : 0 ≤ R.r8 (fval x - fval a) := by
    have := hR.m8 0 (fval x - fval a) (by have := fval_le.2 h1; linarith)
    rwa [r8_zero hR] at this
  have hdD : R.r8 (fval x - fval a) ≤ R.r8 (fval z - fval a) :=
    hR.m8 _ _ (by have := fval_le.2 h2; linarith)
  set d := R.r8 (fval x - fval a)
  set D := R.r8 (fval z - fval a)
  have hq0 : 0 ≤ d / 2 ^ (e - b) := by positivity
  have hpb : (0 : ℚ) < 2 ^ b := by positivity
  have hpe : (0 : ℚ) < 2 ^ e := zpow_pos (by norm_num) _
  have hdiv : ∀ w : ℚ, w / 2 ^ (e - b) = w * 2 ^ b / 2 ^ e := by
    intro w
    rw [← scale_eq]
    ring
  have hmb : (0 : ℚ) < 2 ^ b - 1 := by
    have : (2 : ℚ) ^ 1 ≤ 2 ^ b := pow_le_pow_right₀ (by norm_num) hb1
    linarith
  have hq1 : d / 2 ^ (e - b) < 2 ^ b ∧ (tag.isSome → d / 2 ^ (e - b) < 2 ^ b - 1) := by
    rcases eq_or_lt_of_le (le_trans hd0 hdD) with hz0 | hz0
    · have : d = 0 := by linarith
      rw [this, zero_div]
      exact ⟨hpb, fun _ => hmb⟩
    · obtain ⟨p1, p2, p3, -, -⟩ := packExp_spec tag D b hb1 hb hz0
      rw [← he] at p1 p3
      have hle : d / 2 ^ (e - b) ≤ D * 2 ^ b / 2 ^ e := by
        rw [← hdiv]
        gcongr
      refine ⟨lt_of_le_of_lt hle ?_, fun h => lt_of_le_of_lt hle (p3 h)⟩
      rw [div_lt_iff₀ hpe, mul_comm]
      exact mul_lt_mul_of_pos_left p1 hpb
  have ht : token R tag a b e x = BitVec.ofInt 32 ⌊d / 2 ^ (e - b)⌋ := by
    unfold token
    rw [if_neg (by rw [hm]; simp), scale_eq]
  obtain ⟨f1, f2, f3, f4⟩ := floor_eq_miss _ b hb hq0 hq1.1
  rw [ht, f1]
  refine ⟨f2, ?_, ?_, ?_, rfl⟩
  · intro hsome heq
    have := congrArg BitVec.toNat heq
    rw [f1, miss_toNat b hb] at this
    have hlt := hq1.2 hsome
    rw [this, Nat.cast_sub Nat.one_le_two_pow] at f3
    push_cast at f3
    linarith
  · rwa [le_div_iff₀ hs] at f3
  · rwa [div_lt_iff₀ hs] at f4

/-- C59 with the number of elements and the width found in the header. -/
theorem compact_core {R : Rounding} (hR : Prec R) (u : W) (tag : Option F32) (xs : List F32) (nbits b : Nat) (style1 : Bool)
    (mem : List W) (hp pos : Nat) (mn mx : F32)
    (hw : widths nbits = (b, b)) (hb1 : 1 ≤ b) (hb : b ≤ 32) (hb2 : tag.isSome → nbits ≠ 1)
    (hpos : if style1 then 32 * hp + 120 ≤ pos else 32 * hp + 128 ≤ pos ∧ xs.length < 2 ^ 28)
    (hroom : pos + xs.length * b < 32 * mem.length)
    (hmn : mn ∈ xs ∧ missing tag mn = false) (hmx : mx ∈ xs ∧ missing tag mx = false)
    (hall : ∀ x ∈ xs, missing tag x = false → val mn ≤ val x ∧ val x ≤ val mx)
    (hbig : |fval mn| ≤ big ∧ |fval mx| ≤ big) (hnorm : val mn = 0 ∨ 1 ≤ expo mn) :
    ∃ d ys step, (∃ w0 w3, d[hp]? = some w0 ∧ d[hp + 3]? = some w3 ∧ field w3 8 8 = b ∧ headCount w0 w3 xs.length = xs.length) ∧
      compactPack R tag xs nbits style1 mem hp pos = some d ∧
      compactUnpack R u tag d hp pos xs.length = some ys ∧ d.length = mem.length ∧ ys.length = xs.length ∧
      (∀ (i : Nat), i < hp ∨ (hp + 3 < i ∧ (32 * (i + 1) ≤ pos ∨ pos + xs.length * b ≤ 32 * i)) → d[i]? = mem[i]?) ∧
      0 ≤ step ∧ step * (2 ^ b - 1) ≤ 2 * (fval mx - fval mn) * (1 + 1 / 2 ^ 52) ∧
      (∀ (i : Nat) x y, xs[i]? = some x → ys[i]? = some y →
        (∀ t, tag = some t → val x = val t → y = fval t) ∧
        (missing tag x = false → fval mn ≤ y ∧ (val x = val mn → y = fval x) ∧
          |y - fval x| ≤ step * (1 + 1 / 2 ^ 23) + |fval x| * (1 / 2 ^ 24 + 1 / 2 ^ 50) + (fval x - fval mn) / 2 ^ 41 + 1 / 2 ^ 149 ∧
          ∀ (j : Nat) x' y', xs[j]? = some x' → ys[j]? = some y' → missing tag x' = false → val x ≤ val x' → y ≤ y')) := by
  obtain ⟨a, z, hex, ha, hz, haz⟩ := extremes_spec tag xs mn hmn.1 hmn.2
  have eva : val a = val mn := le_antisymm (haz mn hmn.1 hmn.2).1 (hall a ha.1 ha.2).1
  have evz : val z = val mx := le_antisymm (hall z hz.1 hz.2).2 (haz mx hmx.1 hmx.2).2
  have efa : fval a = fval mn := fval_eq.2 eva
  have efz : fval z = fval mx := fval_eq.2 evz
  have hanorm := normal_of_val eva.symm hnorm
  have hab : |fval a| ≤ big := by rw [efa]; exact hbig.1
  have hzb : |fval z| ≤ big := by rw [efz]; exact hbig.2
  have hxb : ∀ x ∈ xs, missing tag x = false → |fval x| ≤ big := by
    intro x hx hmi
    obtain ⟨h1, h2⟩ := hall x hx hmi
    have h1 := fval_le.2 h1
    have h2 := fval_le.2 h2
    have := abs_le.1 hbig.1
    have := abs_le.1 hbig.2
    rw [abs_le]
    constructor <;> linarith
  set D := R.r8 (fval z - fval a) with hD
  obtain ⟨e, he⟩ : ∃ e, e = packExp tag D b := ⟨_, rfl⟩
  have haz' : val a ≤ val z := (haz z hz.1 hz.2).1
  have hδ0 : 0 ≤ fval z - fval a := by have := fval_le.2 haz'; linarith
  have hDerr := abs_le.1 (diff_err hR z a hzb hab haz')
  rw [← hD] at hDerr
  have hD0 : 0 ≤ D := by
    have : (fval z - fval a) / 2 ^ 52 ≤ fval z - fval a := div_le_self hδ0 (by norm_num)
    linarith
  have hδb : fval z - fval a ≤ 2 * big := by
    have := abs_le.1 hab
    have := abs_le.1 hzb
    linarith
  -- range of the exponent
  have hrange : -300 ≤ e ∧ e ≤ 300 := by
    rcases eq_or_lt_of_le hD0 with h0 | h0
    · rw [he, ← h0, packExp_zero tag b hb1 hb]
      omega
    · obtain ⟨-, -, -, p4, p5⟩ := packExp_spec tag D b hb1 hb h0
      rw [← he] at p4 p5
      have hlow : (2 : ℚ) ^ (-200 : Int) ≤ D := by
        have hne : val a < val z := by
          rcases eq_or_lt_of_le haz' with h | h
          · exfalso
            rw [hD, fval_eq.2 h, sub_self, r8_zero hR] at h0
            exact lt_irrefl _ h0
          · exact h
        have hds := diff_small z a hne
        have h3 : (2 : ℚ) ^ (-200 : Int) ≤ (1 / 2 ^ 149) / 2 := by norm_num
        have h4 : (fval z - fval a) / 2 ^ 52 ≤ (fval z - fval a) / 2 := by gcongr; norm_num
        have h5 := hDerr.1
        generalize (2 : ℚ) ^ (-200 : Int) = c at h3 ⊢
        linarith only [hds, h3, h4, h5]
      have hhigh : D < (2 : ℚ) ^ (200 : Int) := by
        have h3 : (4 : ℚ) * big < 2 ^ (200 : Int) := by unfold big; norm_num
        have h4 : (fval z - fval a) / 2 ^ 52 ≤ fval z - fval a := div_le_self hδ0 (by norm_num)
        have h5 := hDerr.2
        linarith only [h3, h4, h5, hδb]
      have l1 : -200 ≤ Int.log 2 D := (Int.zpow_le_iff_le_log (by norm_num) h0).1 (by exact_mod_cast hlow)
      have l2 : Int.log 2 D < 200 := (Int.lt_zpow_iff_log_lt (by norm_num) h0).1 (by exact_mod_cast hhigh)
      omega
  have hr0 : 0 ≤ e - b + 4096 := by omega
  have hr1 : e - b + 4096 < 2 ^ 16 := by omega
  obtain ⟨f0, f1, f2⟩ := word1_fields a b e hr0 hr1
  obtain ⟨g0, g1⟩ := word0_fields style1 tag.isSome xs.length
  obtain ⟨k0, k1⟩ := word3_fields b xs.length hb
  -- tokens
  have htok : ∀ x ∈ xs, (token R tag a b e x).toNat < 2 ^ b := by
    intro x hx
    cases hmi : missing tag x with
    | true =>
      unfold token
      rw [if_pos hmi, miss_toNat b hb]
      have : 0 < 2 ^ b := by positivity
      omega
    | false =>
      obtain ⟨h1, h2⟩ := haz x hx hmi
      exact (token_spec hR tag a z x b hb1 hb hab hzb (hxb x hx hmi) h1 h2 hmi e he).1
  have hp128 : 32 * hp + 120 ≤ pos := by
    cases style1 <;> simp at hpos <;> omega
  have hlen : 1 ≤ xs.length := List.length_pos_of_mem hmn.1
  have hroom1 : hp + 3 < mem.length := by
    have : 1 * 1 ≤ xs.length * b := Nat.mul_le_mul hlen hb1
    omega
  obtain ⟨m, hm⟩ : ∃ m, putHeader mem hp (word0 style1 tag.isSome xs.length) (word1 a b e) (word2 a) (word3 b xs.length) = some m :=
    ⟨_, by unfold putHeader; rw [if_pos hroom1]⟩
  obtain ⟨ml, m0, m1, m2, m3, mo⟩ := putHeader_get hm
  obtain ⟨d, hpk, dl, dt, dd, hup⟩ := stream u (xs.map (token R tag a b e)) xs.length b hb1 hb
    (by intro t ht; obtain ⟨x, hx, rfl⟩ := List.mem_map.1 ht; exact htok x hx) m pos (by rw [List.length_map, ml]; exact hroom)
    (by rw [List.length_map])
  rw [List.length_map] at dd
  -- the header as read
  have d0 : d[hp]? = some (word0 style1 tag.isSome xs.length) := by rw [word_kept dt (by omega), m0]
  have d1 : d[hp + 1]? = some (word1 a b e) := by rw [word_kept dt (by omega), m1]
  have d2 : d[hp + 2]? = some (word2 a) := by rw [word_kept dt (by omega), m2]
  obtain ⟨w3, d3⟩ : ∃ w, d[hp + 3]? = some w := ⟨_, List.getElem?_eq_getElem (by rw [dl, ml]; exact hroom1)⟩
  have htop := top_kept dt (by omega) m3 d3
  have hsize : field w3 8 8 = b := by
    rw [← k1]
    unfold field
    rw [htop]
  have hcount : headCount (word0 style1 tag.isSome xs.length) w3 xs.length = xs.length := by
    unfold headCount
    rw [g0, g1]
    cases style1 with
    | true => rw [if_pos]; cases tag.isSome <;> simp
    | false =>
      have hw3 : w3 = word3 b xs.length := by
        have := word_kept dt (k := hp + 3) (by simp at hpos; omega)
        rw [d3, m3] at this
        injection this
      rw [if_neg (by cases tag.isSome <;> simp), hw3, k0]
      simp at hpos
      omega
  have hpack : compactPack R tag xs nbits style1 mem hp pos = some d := by
    unfold compactPack
    rw [hw]
    dsimp only
    have hc : ¬ (b = 0 ∨ 32 < b ∨ 32 < b ∨ (nbits = 1 ∧ tag.isSome = true)) := by
      rintro (h | h | h | ⟨h, h'⟩)
      · omega
      · omega
      · omega
      · exact hb2 h' h
    rw [if_neg hc, if_neg (by
      rintro ⟨h, h'⟩
      rw [h] at hpos
      simp at hpos
      omega), hex]
    dsimp only
    have hlim : big ≤ R.r8 (10 ^ 38) := by
      have := hR.e8 (10 ^ 38) (by rw [abs_of_pos (by positivity)]; norm_num)
      rw [abs_of_pos (show (0 : ℚ) < 10 ^ 38 by positivity)] at this
      have h2 := (abs_le.1 this).1
      have h3 : big ≤ 10 ^ 38 - (10 ^ 38 / 2 ^ 53 + 1 / 2 ^ 250) := by unfold big; norm_num
      generalize R.r8 (10 ^ 38) = r at h2 ⊢
      linarith only [h2, h3]
    rw [if_neg (by
      rintro (h | h)
      · have := (abs_le.1 hzb).2
        linarith
      · have := (abs_le.1 hab).1
        linarith)]
    rw [← hD, ← he, hm]
    exact hpk
  have hunpack : compactUnpack R u tag d hp pos xs.length = some ((xs.map (token R tag a b e)).map
      (element R tag b (2 ^ (e - b)) (fval mn))) := by
    unfold compactUnpack
    rw [d0, d1, d2, d3]
    dsimp only
    rw [hsize, hcount, if_neg (by omega), hup, f2, headMin_eq a b e hr0 hr1 hanorm, efa]
    rw [show e - (b : Int) + 4096 - 4096 = e - b by omega]
    rfl
  have hs : (0 : ℚ) < 2 ^ (e - b) := zpow_pos (by norm_num) _
  have hmb : (0 : ℚ) < 2 ^ b - 1 := by
    have : (2 : ℚ) ^ 1 ≤ 2 ^ b := pow_le_pow_right₀ (by norm_num) hb1
    linarith
  refine ⟨d, _, if D = 0 then 0 else 2 ^ (e - b), ⟨_, w3, d0, d3, hsize, hcount⟩, hpack, hunpack, by rw [dl, ml], by rw [List.length_map, List.length_map], ?_, ?_, ?_, ?_⟩
  · intro i hi
    rcases hi with hi | ⟨hi, hi' | hi'⟩
    · rw [word_kept dt (by omega), mo i (Or.inl hi)]
    · rw [word_kept dt (by omega), mo i (Or.inr hi)]
    · rw [← mo i (Or.inr hi)]
      have h1 := congrArg (List.drop (32 * i - (pos + xs.length * b))) dd
      rw [List.drop_drop, List.drop_drop, show pos + xs.length * b + (32 * i - (pos + xs.length * b)) = 32 * i by omega,
        memBits_drop, memBits_drop] at h1
      have h2 := congrArg (fun l => l[0]?) (Verif.Burp.memBits_inj h1)
      simpa using h2
  · split
    · exact le_refl _
    · exact hs.le
  · split
    · rw [zero_mul, ← efa, ← efz]
      positivity
    · rename_i hne
      obtain ⟨-, p2, -, -, -⟩ := packExp_spec tag D b hb1 hb (lt_of_le_of_ne hD0 (Ne.symm hne))
      rw [← he] at p2
      have e1 : (2 : ℚ) ^ (e - b) * (2 ^ b - 1) = 2 ^ e * (2 ^ b - 1) / 2 ^ b := by
        rw [zpow_sub₀ (by norm_num), zpow_natCast]
        ring
      rw [e1, div_le_iff₀ (by positivity), ← efa, ← efz]
      have h5 := hDerr.2
      have : 2 * D ≤ 2 * (fval z - fval a) * (1 + 1 / 2 ^ 52) := by linarith only [h5]
      have := mul_le_mul_of_nonneg_right this (show (0 : ℚ) ≤ 2 ^ b by positivity)
      linarith
  · have helem : ∀ (i : Nat) x y, xs[i]? = some x →
        ((xs.map (token R tag a b e)).map (element R tag b (2 ^ (e - b)) (fval mn)))[i]? = some y →
        x ∈ xs ∧ y = element R tag b (2 ^ (e - b)) (fval mn) (token R tag a b e x) := by
      intro i x y hx hy
      rw [List.getElem?_map, List.getElem?_map, hx] at hy
      simp only [Option.map_some, Option.some.injEq] at hy
      exact ⟨List.mem_of_getElem? hx, hy.symm⟩
    have hpres : ∀ x ∈ xs, missing tag x = false → element R tag b (2 ^ (e - b)) (fval mn) (token R tag a b e x) =
        rebuilt R (2 ^ (e - b)) (fval mn) (token R tag a b e x).toNat := by
      intro x hx hmi
      obtain ⟨h1, h2⟩ := haz x hx hmi
      exact element_present R tag b _ _ _ (token_spec hR tag a z x b hb1 hb hab hzb (hxb x hx hmi) h1 h2 hmi e he).2.1
    intro i x y hx hy
    obtain ⟨hmem, rfl⟩ := helem i x y hx hy
    refine ⟨?_, ?_⟩
    · intro t ht hv
      have hmi : missing tag x = true := by unfold missing; rw [ht]; simp [hv]
      have : token R tag a b e x = missTok b := by unfold token; rw [if_pos hmi]
      rw [this, ht]
      unfold element
      dsimp only
      rw [if_pos rfl]
    · intro hmi
      obtain ⟨h1, h2⟩ := haz x hmem hmi
      have hts := token_spec hR tag a z x b hb1 hb hab hzb (hxb x hmem hmi) h1 h2 hmi e he
      rw [hpres x hmem hmi]
      have hzero : val x = val mn → rebuilt R (2 ^ (e - b)) (fval mn) (token R tag a b e x).toNat = fval x := by
        intro hv
        have hd : fval x - fval a = 0 := by rw [efa, fval_eq.2 hv]; ring
        have ht0 : (token R tag a b e x).toNat = 0 := by
          rw [hts.2.2.2.2, hd, r8_zero hR]
          simp
        rw [ht0, fval_eq.2 hv]
        unfold rebuilt
        rw [if_pos rfl]
      refine ⟨rebuilt_ge hR mn hbig.1 _ hs _, hzero, ?_, ?_⟩
      · split
        · rename_i hDz
          have hδ : fval z - fval a = 0 := by
            have hh : (fval z - fval a) / 2 ^ 52 = (fval z - fval a) * (1 / 2 ^ 52) := by ring
            have := hDerr.1
            rw [hDz] at this
            norm_num at this hh
            linarith
          have hva : val x = val mn := by
            have h3 : val z = val a := fval_eq.1 (by linarith)
            omega
          rw [hzero hva, sub_self, abs_zero]
          have := fval_eq.2 hva
          have h5 : 0 ≤ |fval x| * (1 / 2 ^ 24 + 1 / 2 ^ 50) := by positivity
          have h6 : (0 : ℚ) < 1 / 2 ^ 149 := by positivity
          rw [this, sub_self, zero_mul, zero_div]
          rw [this] at h5
          linarith
        · apply rebuilt_err hR (fval x) (fval mn) (2 ^ (e - b)) (R.r8 (fval x - fval a)) _ hs hts.2.2.1 hts.2.2.2.1
          · rw [← efa]
            exact diff_err hR x a (hxb x hmem hmi) hab h1
          · exact hxb x hmem hmi
          · exact hbig.1
          · rw [← efa]; exact fval_le.2 h1
      · intro j x' y' hx' hy' hmi' hle
        obtain ⟨hmem', rfl⟩ := helem j x' y' hx' hy'
        obtain ⟨h1', h2'⟩ := haz x' hmem' hmi'
        have hts' := token_spec hR tag a z x' b hb1 hb hab hzb (hxb x' hmem' hmi') h1' h2' hmi' e he
        rw [hpres x' hmem' hmi']
        apply rebuilt_mono hR mn hbig.1 _ hs
        rw [hts.2.2.2.2, hts'.2.2.2.2]
        apply Int.toNat_le_toNat
        apply Int.floor_le_floor
        gcongr
        apply hR.m8
        have := fval_le.2 hle
        linarith

/-- C59.  Packing and unpacking of reals. -/
theorem C59_partial {R : Rounding} (hR : Prec R) (u : W) (tag : Option F32) (xs : List F32) (nbits b : Nat) (style1 : Bool)
    (mem : List W) (hp pos : Nat) (mn mx : F32)
    (hw : widths nbits = (b, b)) (hb1 : 1 ≤ b) (hb : b ≤ 32) (hb2 : tag.isSome → nbits ≠ 1)
    (hpos : if style1 then 32 * hp + 120 ≤ pos else 32 * hp + 128 ≤ pos ∧ xs.length < 2 ^ 28)
    (hroom : pos + xs.length * b < 32 * mem.length)
    (hmn : mn ∈ xs ∧ missing tag mn = false) (hmx : mx ∈ xs ∧ missing tag mx = false)
    (hall : ∀ x ∈ xs, missing tag x = false → val mn ≤ val x ∧ val x ≤ val mx)
    (hbig : |fval mn| ≤ big ∧ |fval mx| ≤ big) (hnorm : val mn = 0 ∨ 1 ≤ expo mn) :
    ∃ d ys step, compactPack R tag xs nbits style1 mem hp pos = some d ∧
      compactUnpack R u tag d hp pos xs.length = some ys ∧ d.length = mem.length ∧ ys.length = xs.length ∧
      (∀ (i : Nat), i < hp ∨ (hp + 3 < i ∧ (32 * (i + 1) ≤ pos ∨ pos + xs.length * b ≤ 32 * i)) → d[i]? = mem[i]?) ∧
      0 ≤ step ∧ step * (2 ^ b - 1) ≤ 2 * (fval mx - fval mn) * (1 + 1 / 2 ^ 52) ∧
      (∀ (i : Nat) x y, xs[i]? = some x → ys[i]? = some y →
        (∀ t, tag = some t → val x = val t → y = fval t) ∧
        (missing tag x = false → fval mn ≤ y ∧ (val x = val mn → y = fval x) ∧
          |y - fval x| ≤ step * (1 + 1 / 2 ^ 23) + |fval x| * (1 / 2 ^ 24 + 1 / 2 ^ 50) + (fval x - fval mn) / 2 ^ 41 + 1 / 2 ^ 149 ∧
          ∀ (j : Nat) x' y', xs[j]? = some x' → ys[j]? = some y' → missing tag x' = false → val x ≤ val x' → y ≤ y')) := by
  obtain ⟨d, ys, step, -, h⟩ := compact_core hR u tag xs nbits b style1 mem hp pos mn mx hw hb1 hb hb2 hpos hroom hmn hmx hall hbig hnorm
  exact ⟨d, ys, step, h⟩

/-! ### The hypotheses can be met -/


theorem prec_exact : Prec ⟨id, id⟩ where
  e8 x _ := by simp only [id, sub_self, abs_zero]; positivity
  e4 x _ := by simp only [id, sub_self, abs_zero]; positivity
  m8 _ _ h := h
  m4 _ _ h := h
  x8 _ _ := rfl
  x4 _ _ := rfl

theorem nearest_mono (p : Nat) (hp : 1 ≤ p) (x y : ℚ) (h : x ≤ y) : Props.Grid.nearest p x ≤ Props.Grid.nearest p y := by
  rcases eq_or_lt_of_le h with rfl | h
  · exact le_refl _
  by_contra hc
  obtain ⟨m1, f1, hm1, e1⟩ := Props.Grid.nearest_form p hp x
  obtain ⟨m2, f2, hm2, e2⟩ := Props.Grid.nearest_form p hp y
  have b1 := Props.Grid.nearest_best p hp x m2 f2 hm2
  have b2 := Props.Grid.nearest_best p hp y m1 f1 hm1
  rw [← e2] at b1
  rw [← e1] at b2
  generalize Props.Grid.nearest p x = a at *
  generalize Props.Grid.nearest p y = b at *
  rcases abs_cases (a - x) with ⟨q1, q1'⟩ | ⟨q1, q1'⟩ <;> rcases abs_cases (b - x) with ⟨q2, q2'⟩ | ⟨q2, q2'⟩ <;>
    rcases abs_cases (b - y) with ⟨q3, q3'⟩ | ⟨q3, q3'⟩ <;> rcases abs_cases (a - y) with ⟨q4, q4'⟩ | ⟨q4, q4'⟩ <;>
    rw [q1, q2] at b1 <;> rw [q3, q4] at b2 <;> linarith

theorem nearest_float (p : Nat) (hp : 24 ≤ p) (x : F32) : Props.Grid.nearest p (fval x) = fval x := by
  obtain ⟨m, f, hm, e⟩ : ∃ m f : Int, |m| < 2 ^ p ∧ fval x = m * 2 ^ f := by
    have hfr := Props.FloatPacker.frac_lt x
    have h24 : (2 : Int) ^ 24 ≤ 2 ^ p := by
      have : 2 ^ 24 ≤ 2 ^ p := Nat.pow_le_pow_right (by omega) hp
      exact_mod_cast this
    have key : ∀ (s : Int) (k j : Nat), |s| ≤ 1 → k < 2 ^ 24 → val x = s * ((k * 2 ^ j : Nat) : Int) →
        ∃ m f : Int, |m| < 2 ^ p ∧ fval x = m * 2 ^ f := by
      intro s k j hs hk hv
      refine ⟨s * k, j - 149, ?_, ?_⟩
      · rw [abs_mul, Nat.abs_cast]
        have : |s| * (k : Int) ≤ 1 * k := mul_le_mul_of_nonneg_right hs (by omega)
        omega
      · unfold fval
        rw [hv, zpow_sub₀ (by norm_num), zpow_natCast]
        push_cast
        ring
    unfold val at key
    dsimp only at key
    by_cases h0 : expo x = 0
    · rw [if_pos h0] at key
      cases hn : neg x
      · exact key 1 (frac x) 0 (by simp) (by omega) (by simp [hn])
      · exact key (-1) (frac x) 0 (by simp) (by omega) (by simp [hn])
    · rw [if_neg h0] at key
      cases hn : neg x
      · exact key 1 (2 ^ 23 + frac x) (expo x - 1) (by simp) (by omega) (by simp [hn])
      · exact key (-1) (2 ^ 23 + frac x) (expo x - 1) (by simp) (by omega) (by simp [hn])
  have := Props.Grid.nearest_best p (by omega) (fval x) m f hm
  rw [← e, sub_self, abs_zero] at this
  exact sub_eq_zero.1 (abs_eq_zero.1 (le_antisymm this (abs_nonneg _)))

/-- Rounding to nearest in single and double precision. -/
theorem prec_nearest : Prec ⟨Props.Grid.nearest 24, Props.Grid.nearest 53⟩ where
  e8 x _ := by
    have := Props.Grid.nearest_err 53 (by norm_num) x
    have h : (0 : ℚ) < 1 / 2 ^ 250 := by positivity
    dsimp only
    linarith
  e4 x _ := by
    have := Props.Grid.nearest_err 24 (by norm_num) x
    have h : (0 : ℚ) < 1 / 2 ^ 150 := by positivity
    dsimp only
    linarith
  m8 x y h := nearest_mono 53 (by norm_num) x y h
  m4 x y h := nearest_mono 24 (by norm_num) x y h
  x8 f _ := nearest_float 53 (by norm_num) f
  x4 f _ := nearest_float 24 (by norm_num) f

/-- 1, a missing value (-999), 2 and 1.5 with 12 bits, header at word 1, stream at bit 160: the missing value comes back, 1 is
exact, and 1.5 lies between 1 and 2 within 1/2000. -/
example (u : W) : ∃ d y0 y1 y2 y3, compactPack ⟨Props.Grid.nearest 24, Props.Grid.nearest 53⟩ (some 0xC479C000#32)
      [0x3f800000#32, 0xC479C000#32, 0x40000000#32, 0x3fc00000#32] 12 false (List.replicate 8 0#32) 1 160 = some d ∧
    compactUnpack ⟨Props.Grid.nearest 24, Props.Grid.nearest 53⟩ u (some 0xC479C000#32) d 1 160 4 = some [y0, y1, y2, y3] ∧
    y0 = 1 ∧ y1 = fval 0xC479C000#32 ∧ |y3 - 3 / 2| ≤ 1 / 2000 ∧ y0 ≤ y3 ∧ y3 ≤ y2 := by
  have f1 : fval 0x3f800000#32 = 1 := by
    unfold fval; rw [show val 0x3f800000#32 = 2 ^ 149 by decide +kernel]; norm_num
  have f2 : fval 0x40000000#32 = 2 := by
    unfold fval; rw [show val 0x40000000#32 = 2 ^ 150 by decide +kernel]; norm_num
  have f3 : fval 0x3fc00000#32 = 3 / 2 := by
    unfold fval; rw [show val 0x3fc00000#32 = 3 * 2 ^ 148 by decide +kernel]; norm_num
  obtain ⟨d, ys, step, h1, h2, h3, h4, h5, h6, h7, h8⟩ := C59_partial prec_nearest u (some 0xC479C000#32)
    [0x3f800000#32, 0xC479C000#32, 0x40000000#32, 0x3fc00000#32] 12 12 false (List.replicate 8 0#32) 1 160
    0x3f800000#32 0x40000000#32 (by decide) (by decide) (by decide) (by decide) (by decide) (by decide)
    ⟨by decide, by decide +kernel⟩ ⟨by decide, by decide +kernel⟩
    (by
      intro x hx hm
      simp only [List.mem_cons, List.not_mem_nil, or_false] at hx
      rcases hx with rfl | rfl | rfl | rfl
      · decide +kernel
      · exact absurd hm (by decide +kernel)
      · decide +kernel
      · decide +kernel)
    (by rw [f1, f2]; unfold big; norm_num) (by right; decide)
  obtain ⟨y0, y1, y2, y3, rfl⟩ : ∃ y0 y1 y2 y3, ys = [y0, y1, y2, y3] := by
    match ys, h4 with
    | [y0, y1, y2, y3], _ => exact ⟨y0, y1, y2, y3, rfl⟩
  obtain ⟨-, p0⟩ := h8 0 0x3f800000#32 y0 rfl rfl
  obtain ⟨p1, -⟩ := h8 1 0xC479C000#32 y1 rfl rfl
  obtain ⟨-, p3⟩ := h8 3 0x3fc00000#32 y3 rfl rfl
  obtain ⟨a1, a2, a3, a4⟩ := p0 (by decide +kernel)
  obtain ⟨b1, b2, b3, b4⟩ := p3 (by decide +kernel)
  refine ⟨d, y0, y1, y2, y3, h1, h2, ?_, p1 _ rfl rfl, ?_, a4 3 _ y3 rfl rfl (by decide +kernel) (by decide +kernel),
    b4 2 _ y2 rfl rfl (by decide +kernel) (by decide +kernel)⟩
  · rw [a2 rfl, f1]
  · rw [f1, f3] at b3
    rw [f1, f2] at h7
    rw [abs_of_pos (show (0 : ℚ) < 3 / 2 by norm_num)] at b3
    norm_num at b3 h7
    linarith

/-! ### Where it fails -/

theorem fval_one : fval 0x3f800000#32 = 1 := by
  unfold fval
  rw [show val 0x3f800000#32 = 2 ^ 149 by decide +kernel]
  norm_num

theorem fval_zero : fval 0#32 = 0 := by
  unfold fval
  rw [show val 0#32 = 0 by decide]
  simp

theorem unpack_list (u : W) (mem ts : List W) (b pos : Nat) (rest : List Bool) (hb1 : 1 ≤ b) (hb : b ≤ 32)
    (hlt : ∀ t ∈ ts, t.toNat < 2 ^ b) (hd : (memBits mem).drop pos = tokBits b ts ++ rest) (hrest : rest ≠ []) :
    unpack u mem ts.length 1 b pos (.raw 0) (List.replicate ts.length 0#32) = some ts := by
  obtain ⟨o, eo, lo, so, -⟩ := unpack_spec (u := u) (kind := .raw 0) (out := List.replicate ts.length 0#32) hb1 hb (le_refl 1)
    hlt hd hrest (by intro j hj; rw [List.length_replicate]; omega)
  rw [eo]
  congr 1
  apply List.ext_getElem?
  intro i
  by_cases hi : i < ts.length
  · have := so i (by simpa using hi)
    rw [Nat.mul_one] at this
    rw [this, List.getElem?_eq_getElem hi]
    congr 1
    rw [List.getElem_map]
    unfold UntokKind.val
    simp
  · rw [List.getElem?_eq_none (by rw [lo, List.length_replicate]; omega), List.getElem?_eq_none (by omega)]

/-- Data type 129 with fewer than 16 bits: 0 and 1 packed with 12 bits in fields of 16 (argument 12 + 64 × 16) and read back
with the width 12 of the header; the 1 comes back below 1/128. -/
theorem C59_narrow_witness {R : Rounding} (hR : Prec R) (u : W) :
    ∃ d y, compactPack R none [0#32, 0x3f800000#32] (12 + 64 * 16) true (List.replicate 6 0#32) 0 120 = some d ∧
      compactUnpack R u none d 0 120 2 = some [0, y] ∧ y ≤ 1 / 128 := by
  have h128 : fval 0x3c000000#32 = 1 / 128 := by
    unfold fval
    rw [show val 0x3c000000#32 = 2 ^ 142 by decide +kernel]
    norm_num
  have hr1 : R.r8 1 = 1 := by have := hR.x8 0x3f800000#32 (by decide); rwa [fval_one] at this
  have hlim : (1 : ℚ) ≤ R.r8 (10 ^ 38) := by
    have := hR.m8 1 (10 ^ 38) (by norm_num)
    rwa [hr1] at this
  have hexp : packExp none 1 12 = 1 := by
    unfold packExp rangeExp
    rw [if_neg (by simp), if_neg (by norm_num)]
    simp
  have htoks : [0#32, 0x3f800000#32].map (token R none 0#32 12 1) = [0#32, 2048#32] := by
    simp only [List.map_cons, List.map_nil, token, missing, Bool.false_eq_true, if_false, fval_one, fval_zero, sub_zero,
      r8_zero hR, hr1, zero_mul]
    norm_num
  refine ⟨[2146435074#32, 267718928#32, 0#32, 3072#32, 524288#32, 0#32],
    rebuilt R (2 ^ (-11 : Int)) 0 8, ?_, ?_, ?_⟩
  · unfold compactPack
    rw [show widths (12 + 64 * 16) = (12, 16) by decide]
    dsimp only
    rw [if_neg (by decide), if_neg (by decide), show extremes none [0#32, 0x3f800000#32] = some (0#32, 0x3f800000#32) by decide]
    dsimp only
    rw [fval_one, fval_zero, if_neg (by
      rintro (h | h)
      · linarith
      · linarith), sub_zero, hr1, hexp, htoks]
    decide +kernel
  · unfold compactUnpack
    dsimp only [List.getElem?_cons_zero, List.getElem?_cons_succ]
    rw [if_neg (by decide), show headCount 2146435074#32 3072#32 2 = 2 by decide, show field 3072#32 8 8 = 12 by decide]
    have hun : unpack u [2146435074#32, 267718928#32, 0#32, 3072#32, 524288#32, 0#32] 2 1 12 120 (.raw 0)
        (List.replicate 2 0#32) = some [0#32, 8#32] :=
      unpack_list u _ [0#32, 8#32] 12 120 ((memBits [524288#32, 0#32]).drop 16) (by decide) (by decide) (by simp) (by decide +kernel)
        (by decide +kernel)
    rw [hun, show headMin 267718928#32 0#32 = 0 from if_pos (Or.inl rfl)]
    rw [show (field 267718928#32 16 16 : Int) - 4096 = -11 by decide]
    simp only [Option.map_some, List.map_cons, List.map_nil]
    rw [element_present _ _ _ _ _ _ (by simp), element_present _ _ _ _ _ _ (by simp)]
    rfl
  · unfold rebuilt
    rw [if_neg (by decide), add_zero]
    have hc := (abs_le.1 (c_near hR)).2
    have h1 : R.r8 (((8 : Nat) : ℚ) * 2 ^ (-11 : Int) * R.r8 (10000000000001 / 10 ^ 13)) ≤ 1 / 128 := by
      rw [← h128, ← hR.x8 0x3c000000#32 (by decide), h128]
      apply hR.m8
      have : (1 : ℚ) / 2 ^ 43 ≤ 1 := by norm_num
      norm_num at hc this ⊢
      linarith
    have h2 := hR.m8 _ _ h1
    rw [← h128, hR.x8 0x3c000000#32 (by decide), h128] at h2
    have h3 := hR.m4 _ _ h2
    rw [← h128, hR.x4 0x3c000000#32 (by decide), h128] at h3
    exact h3

/-- A field whose minimum is below the normal numbers: a constant 0x600000 (× 2^-149) comes back as 0x400000. -/
theorem C59_subnormal_witness {R : Rounding} (hR : Prec R) (u : W) :
    ∃ d, compactPack R none [0x600000#32] 12 true (List.replicate 6 0#32) 0 120 = some d ∧
      compactUnpack R u none d 0 120 1 = some [fval 0x400000#32] ∧ fval 0x400000#32 ≠ fval 0x600000#32 := by
  have hlim : (1 : ℚ) ≤ R.r8 (10 ^ 38) := by
    have h := hR.m8 1 (10 ^ 38) (by norm_num)
    have hr1 := hR.x8 0x3f800000#32 (by decide)
    rw [fval_one] at hr1
    rwa [hr1] at h
  have hsmall : 0 ≤ fval 0x600000#32 ∧ fval 0x600000#32 ≤ 1 := by
    unfold fval
    rw [show val 0x600000#32 = 0x600000 by decide +kernel]
    norm_num
  refine ⟨[2146435073#32, 267662608#32, 3221225472#32, 3072#32, 0#32, 0#32], ?_, ?_, ?_⟩
  · unfold compactPack
    rw [show widths 12 = (12, 12) by decide]
    dsimp only
    rw [if_neg (by decide), if_neg (by decide),
      show extremes none [0x600000#32] = some (0x600000#32, 0x600000#32) by decide]
    dsimp only
    rw [if_neg (by
      rintro (h | h)
      · linarith
      · linarith), sub_self, r8_zero hR, packExp_zero _ _ (by decide) (by decide)]
    rw [show [0x600000#32].map (token R none 0x600000#32 12 0) = [0#32] by
      simp only [List.map_cons, List.map_nil, token, missing, Bool.false_eq_true, if_false, sub_self, r8_zero hR, zero_mul]
      rfl]
    decide +kernel
  · unfold compactUnpack
    dsimp only [List.getElem?_cons_zero, List.getElem?_cons_succ]
    rw [if_neg (by decide), show headCount 2146435073#32 3072#32 1 = 1 by decide, show field 3072#32 8 8 = 12 by decide]
    have hun := unpack_list u [2146435073#32, 267662608#32, 3221225472#32, 3072#32, 0#32, 0#32] [0#32] 12 120
      ((memBits [0#32, 0#32]).drop 4) (by decide) (by decide) (by simp) (by decide +kernel) (by decide +kernel)
    rw [show [0#32].length = 1 from rfl] at hun
    rw [hun]
    simp only [Option.map_some, List.map_cons, List.map_nil]
    rw [element_present _ _ _ _ _ _ (by simp)]
    unfold rebuilt
    rw [if_pos (by rfl)]
    congr 2
  · rw [Ne, fval_eq]
    decide +kernel

/-- A field with missing values only: the search for a value runs out of the array. -/
theorem C59_all_missing_witness (R : Rounding) (g : F32) (n nbits : Nat) (style1 : Bool) (mem : List W) (hp pos : Nat) :
    compactPack R (some g) (List.replicate n g) nbits style1 mem hp pos = none := by
  have : extremes (some g) (List.replicate n g) = none := by
    unfold extremes
    rw [show (List.replicate n g).filter (fun x => !missing (some g) x) = [] by
      rw [List.filter_eq_nil_iff]
      intro x hx
      rw [List.eq_of_mem_replicate hx]
      simp [missing]]
  unfold compactPack
  dsimp only
  rw [this]
  split
  · rfl
  · split <;> rfl

end Props.CompactFloat
