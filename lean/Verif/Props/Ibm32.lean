import Verif.Ibm32
import Mathlib.Tactic

/-! # C119: IBM numbers made IEEE -/

namespace Verif.Ibm32

/-- The number a word stands for in IBM format: sign, exponent of 16 less 64, 24 bits after the point. -/
def ibm (w : Nat) : ℚ :=
  (-1) ^ (w / 2147483648 % 2) * (((w % 16777216 : Nat) : ℚ) / 16777216) * 16 ^ (((w / 16777216 % 128 : Nat) : ℤ) - 64)

/-- The number the low 32 bits of a word stand for in IEEE format (not for infinities and NaN). -/
def ieee (w : Nat) : ℚ :=
  let e := w / 8388608 % 256
  let f := w % 8388608
  (-1) ^ (w / 2147483648 % 2) *
    (if e = 0 then (f : ℚ) / 8388608 * 2 ^ (-126 : ℤ) else (1 + (f : ℚ) / 8388608) * 2 ^ ((e : ℤ) - 127))

theorem norm_spec (f m : Nat) (e : ℤ) (h1 : 0 < m) (h2 : m < 16777216) (h3 : 8388608 ≤ m * 2 ^ f) :
    ∃ k : Nat, norm f m e = (m * 2 ^ k, e - k) ∧ 8388608 ≤ m * 2 ^ k ∧ m * 2 ^ k < 16777216 := by
  induction f generalizing m e with
  | zero => exact ⟨0, by simp [norm], by simpa using h3, by simpa using h2⟩
  | succ f ih =>
    simp only [norm]
    by_cases hm : m / 8388608 % 2 = 0
    · rw [if_pos hm]
      have hlt : m < 8388608 := by omega
      obtain ⟨k, a, b, c⟩ := ih (2 * m) (e - 1) (by omega) (by omega) (by
        rw [pow_succ] at h3
        calc 8388608 ≤ m * (2 ^ f * 2) := h3
          _ = 2 * m * 2 ^ f := by ring)
      have e2 : 2 * m * 2 ^ k = m * 2 ^ (k + 1) := by ring
      rw [e2] at a b c
      refine ⟨k + 1, ?_, b, c⟩
      rw [a]
      push_cast
      congr 1
      ring
    · rw [if_neg hm]
      exact ⟨0, by simp, by simp; omega, by simpa using h2⟩

theorem pow_cut (a b : ℤ) : (2 : ℚ) ^ a * 2 ^ b = 2 ^ (a + b) := (zpow_add₀ (by norm_num) a b).symm

/-- The size of the number in terms of the normalised mantissa. -/
theorem abs_ibm (w : Nat) : |ibm w| = ((w % 16777216 : Nat) : ℚ) * 2 ^ (expo w - 150) := by
  have h16 : (16 : ℚ) = 2 ^ (4 : ℤ) := by norm_num
  unfold ibm expo
  rw [abs_mul, abs_mul, abs_pow, abs_neg, abs_one, one_pow, one_mul,
    abs_of_nonneg (a := ((w % 16777216 : Nat) : ℚ) / 16777216) (by positivity), abs_of_nonneg (by positivity), h16, ← zpow_mul]
  have h24 : (16777216 : ℚ) = 2 ^ (24 : ℤ) := by norm_num
  rw [h24, div_eq_mul_inv, ← zpow_neg, mul_assoc, pow_cut]
  congr 2
  norm_num
  ring

theorem sign_ibm (w : Nat) : ibm w = (-1) ^ (w / 2147483648 % 2) * |ibm w| := by
  rw [abs_ibm]
  have h16 : (16 : ℚ) = 2 ^ (4 : ℤ) := by norm_num
  unfold ibm expo
  rw [h16, ← zpow_mul]
  have h24 : (16777216 : ℚ) = 2 ^ (24 : ℤ) := by norm_num
  rw [h24, div_eq_mul_inv, ← zpow_neg, mul_assoc, mul_assoc, pow_cut]
  congr 3
  norm_num
  ring

/-- **C119** (numbers with a mantissa that is not zero; words with a zero mantissa are not all made zero, see
`C119_zero_witness`) — A number in the range of normal IEEE numbers is converted without any error, a smaller
one becomes zero, and a larger one stops the program. -/
theorem C119_partial (w : Nat) (hw : w < 4294967296) (hm : w % 16777216 ≠ 0) :
    (|ibm w| < 2 ^ (-126 : ℤ) → word w = some 0) ∧
    (2 ^ (-126 : ℤ) ≤ |ibm w| → |ibm w| < 2 ^ (128 : ℤ) → ∃ r, word w = some r ∧ ieee r = ibm w ∧
      (r / 8388608 % 256 ≠ 0 ∧ r / 8388608 % 256 ≠ 255) ∧
      r / 4294967296 = (if w / 2147483648 = 1 then 4294967295 else 0)) ∧
    (2 ^ (128 : ℤ) ≤ |ibm w| → word w = none) := by
  set m := w % 16777216 with hmdef
  have hm24 : m < 16777216 := Nat.mod_lt _ (by norm_num)
  have hmpos : 0 < m := Nat.pos_of_ne_zero hm
  obtain ⟨k, hk, hk1, hk2⟩ := norm_spec 23 m (expo w) hmpos hm24 (by
    have h23 : (2 : Nat) ^ 23 = 8388608 := by norm_num
    rw [h23]
    omega)
  have habs := abs_ibm w
  rw [← hmdef] at habs
  set E : ℤ := expo w - k with hE
  have hval : |ibm w| = ((m * 2 ^ k : Nat) : ℚ) * 2 ^ (E - 150) := by
    rw [habs]
    push_cast
    rw [mul_assoc, ← zpow_natCast (2 : ℚ) k, pow_cut]
    congr 2
    omega
  have hlo : (2 : ℚ) ^ (E - 127) ≤ |ibm w| := by
    rw [hval]
    have : (2 : ℚ) ^ (E - 127) = 2 ^ (23 : ℤ) * 2 ^ (E - 150) := by
      rw [pow_cut]
      congr 1
      ring
    rw [this]
    apply mul_le_mul_of_nonneg_right _ (by positivity)
    have : ((8388608 : Nat) : ℚ) ≤ ((m * 2 ^ k : Nat) : ℚ) := by exact_mod_cast hk1
    norm_num at this ⊢
    exact this
  have hhi : |ibm w| < (2 : ℚ) ^ (E - 126) := by
    rw [hval]
    have : (2 : ℚ) ^ (E - 126) = 2 ^ (24 : ℤ) * 2 ^ (E - 150) := by
      rw [pow_cut]
      congr 1
      ring
    rw [this]
    apply mul_lt_mul_of_pos_right _ (by positivity)
    have : ((m * 2 ^ k : Nat) : ℚ) < ((16777216 : Nat) : ℚ) := by exact_mod_cast hk2
    norm_num at this ⊢
    exact this
  have hword : word w = if E ≤ 0 then some 0 else if 255 ≤ E then none
      else some (m * 2 ^ k % 8388608 + E.toNat * 8388608 + w / 2147483648 * 2147483648 + w / 2147483648 * 18446744069414584320) := by
    simp only [word, ← hmdef, if_neg hm, hk]
  have mono : ∀ a b : ℤ, (2 : ℚ) ^ a < 2 ^ b → a < b := fun a b h => (zpow_lt_zpow_iff_right₀ (by norm_num)).1 h
  refine ⟨fun h => ?_, fun ha hb => ?_, fun h => ?_⟩
  · have := mono _ _ (lt_of_le_of_lt hlo h)
    rw [hword, if_pos (by omega)]
  · have e1 := mono _ _ (lt_of_le_of_lt ha hhi)
    have e2 := mono _ _ (lt_of_le_of_lt hlo hb)
    rw [hword, if_neg (by omega), if_neg (by omega)]
    refine ⟨_, rfl, ?_⟩
    have hs : w / 2147483648 = 0 ∨ w / 2147483648 = 1 := by omega
    obtain ⟨n, hn⟩ : ∃ n : Nat, E = n := ⟨E.toNat, by omega⟩
    rw [hn] at e1 e2 ⊢
    simp only [Int.toNat_natCast]
    generalize hM : m * 2 ^ k = M at *
    obtain ⟨f, hf⟩ : ∃ f, M = 8388608 + f := ⟨M - 8388608, by omega⟩
    have hMf : M % 8388608 = f := by omega
    rw [hMf]
    have hf23 : f < 8388608 := by omega
    generalize hS : w / 2147483648 = S at *
    have r1 : (f + n * 8388608 + S * 2147483648 + S * 18446744069414584320) / 8388608 % 256 = n := by
      rcases hs with rfl | rfl <;> omega
    have r2 : (f + n * 8388608 + S * 2147483648 + S * 18446744069414584320) % 8388608 = f := by
      rcases hs with rfl | rfl <;> omega
    have r3 : (f + n * 8388608 + S * 2147483648 + S * 18446744069414584320) / 2147483648 % 2 = S % 2 := by
      rcases hs with rfl | rfl <;> omega
    refine ⟨?_, ?_, ?_⟩
    · rw [sign_ibm, hval, hS]
      simp only [ieee, r1, r2, r3]
      rw [if_neg (by omega)]
      congr 1
      rw [hn, hf]
      have : (2 : ℚ) ^ ((n : ℤ) - 127) = 2 ^ (23 : ℤ) * 2 ^ ((n : ℤ) - 150) := by
        rw [pow_cut]
        congr 1
        ring
      rw [this]
      push_cast
      norm_num
      ring
    · rw [r1]
      omega
    · have r4 : (f + n * 8388608 + S * 2147483648 + S * 18446744069414584320) / 4294967296 = S * 4294967295 := by
        rcases hs with rfl | rfl <;> omega
      rw [r4]
      rcases hs with rfl | rfl <;> simp
  · have := mono _ _ (lt_of_le_of_lt h hhi)
    rw [hword, if_neg (by omega), if_pos (by omega)]

/-- **C119** — An array is converted word by word, and only if no word stops the program. -/
theorem C119_array (ws rs : List Nat) :
    convert ws = some rs ↔ List.Forall₂ (fun w r => word w = some r) ws rs := by
  unfold convert
  induction ws generalizing rs with
  | nil => simp [eq_comm]
  | cons w ws ih =>
    rw [List.mapM_cons]
    simp only [Option.bind_eq_bind, Option.bind_eq_some_iff, Option.pure_def, Option.some.injEq]
    constructor
    · rintro ⟨r, h1, rs', h2, rfl⟩
      exact List.Forall₂.cons h1 ((ih rs').1 h2)
    · intro h
      cases h with
      | cons h1 h2 => exact ⟨_, h1, _, (ih _).2 h2, rfl⟩

/-- **C119** — Words with a zero mantissa, all of which stand for zero, are left as they are when their exponent
is from 33 to 96, and then stand for something else; with an exponent of 97 or more they stop the program. -/
theorem C119_zero_witness (s e : Nat) (_hs : s < 2) (he : e < 128) :
    ibm (s * 2147483648 + e * 16777216) = 0 ∧
    (e ≤ 32 → word (s * 2147483648 + e * 16777216) = some 0) ∧
    (33 ≤ e → e ≤ 96 → word (s * 2147483648 + e * 16777216) = some (s * 2147483648 + e * 16777216) ∧
      ieee (s * 2147483648 + e * 16777216) ≠ 0) ∧
    (97 ≤ e → word (s * 2147483648 + e * 16777216) = none) := by
  have m0 : (s * 2147483648 + e * 16777216) % 16777216 = 0 := by omega
  have x0 : (s * 2147483648 + e * 16777216) / 16777216 % 128 = e := by omega
  have hx : expo (s * 2147483648 + e * 16777216) = ((e : ℤ) - 64) * 4 + 128 - 2 := by rw [expo, x0]
  refine ⟨?_, fun h => ?_, fun h1 h2 => ⟨?_, ?_⟩, fun h => ?_⟩
  · simp [ibm, m0]
  · simp only [word, m0, if_true, hx]
    rw [if_pos (by omega)]
  · simp only [word, m0, if_true, hx]
    rw [if_neg (by omega), if_neg (by omega)]
  · have y1 : (s * 2147483648 + e * 16777216) / 8388608 % 256 = 2 * e := by omega
    have y2 : (s * 2147483648 + e * 16777216) % 8388608 = 0 := by omega
    simp only [ieee, y1, y2]
    rw [if_neg (by omega)]
    apply mul_ne_zero
    · exact pow_ne_zero _ (by norm_num)
    · apply mul_ne_zero
      · norm_num
      · exact zpow_ne_zero _ (by norm_num)
  · simp only [word, m0, if_true, hx]
    rw [if_neg (by omega), if_pos (by omega)]

/-- -118.625 is `0xC276A000` in IBM format and `0xC2ED4000` in IEEE format. -/
example : word 0xC276A000 = some 0xFFFFFFFFC2ED4000 ∧ ibm 0xC276A000 = -949 / 8 ∧ ieee 0xC2ED4000 = -949 / 8 := by
  refine ⟨by decide +kernel, ?_, ?_⟩
  · norm_num [ibm]
  · norm_num [ieee]

end Verif.Ibm32
