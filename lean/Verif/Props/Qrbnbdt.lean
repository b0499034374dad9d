import Verif.Qrbnbdt
import Mathlib.Tactic

namespace Verif.Qrbnbdt

/-! # C147: the number of bits of a BURP block -/

theorem extent_go : ∀ (vals : List Int) (s : Int × Int),
    let e := vals.foldl (fun s v => (max s.1 v, min s.2 v)) s
    s.1 ≤ e.1 ∧ e.2 ≤ s.2 ∧ (∀ v ∈ vals, e.2 ≤ v ∧ v ≤ e.1) ∧ (e.1 = s.1 ∨ e.1 ∈ vals) ∧ (e.2 = s.2 ∨ e.2 ∈ vals) := by
  intro vals
  induction vals with
  | nil => intro s; simp
  | cons v vals ih =>
    intro s
    obtain ⟨h1, h2, h3, h4, h5⟩ := ih (max s.1 v, min s.2 v)
    simp only [List.foldl_cons]
    simp only at h1 h2 h4 h5
    refine ⟨by omega, by omega, ?_, ?_, ?_⟩
    · intro w hw
      rcases List.mem_cons.mp hw with rfl | hw
      · omega
      · exact h3 w hw
    · rcases h4 with h4 | h4
      · rcases le_total s.1 v with h | h
        · right; rw [h4, max_eq_right h]; simp
        · left; rw [h4, max_eq_left h]
      · right; simp [h4]
    · rcases h5 with h5 | h5
      · rcases le_total s.2 v with h | h
        · left; rw [h5, min_eq_left h]
        · right; rw [h5, min_eq_right h]; simp
      · right; simp [h5]

theorem supval_pow {i : Nat} (h : i < 32) : supval i = 2 ^ (i - 1) := if_neg (by omega)

theorem pow_step {i : Nat} (h : 0 < i) : (2 : Int) ^ i = 2 * 2 ^ (i - 1) := by
  obtain ⟨k, rfl⟩ : ∃ k, i = k + 1 := ⟨i - 1, by omega⟩
  rw [pow_succ]; simp [mul_comm]

/-- What the loop finds. -/
theorem scan_spec (mx : Int) (hmx : 0 ≤ mx) (hm : mx < 2147483647) : ∀ (n i : Nat), n + i = 33 → 1 < i → 2 ^ (i - 2) ≤ mx →
    ∃ b, scan mx n i = some b ∧ i - 1 ≤ b ∧ b ≤ 32 ∧ mx ≤ 2 ^ b - 2 ∧
      (mx < 2147483646 → ∀ c, i - 1 ≤ c → mx ≤ 2 ^ c - 2 → b ≤ c) := by
  intro n
  induction n with
  | zero =>
    intro i h1 _ h3
    have : i = 33 := by omega
    subst this
    norm_num at h3
    omega
  | succ n ih =>
    intro i h1 h2 h3
    rw [scan]
    by_cases hlt : mx < supval i
    · rw [if_pos hlt]
      by_cases hlt2 : mx < supval i - 1
      · refine ⟨i - 1, by rw [if_pos hlt2], by omega, by omega, ?_, fun _ c hc _ => hc⟩
        by_cases hi : i = 32
        · subst hi; simp only [supval] at hlt2; norm_num at hlt2 ⊢; omega
        · rw [supval_pow (by omega)] at hlt2; omega
      · refine ⟨i, by rw [if_neg hlt2], by omega, by omega, ?_, ?_⟩
        · by_cases hi : i = 32
          · subst hi; norm_num; omega
          · rw [supval_pow (by omega)] at hlt
            have := pow_step (i := i) (by omega)
            have hp : (0 : Int) < 2 ^ (i - 1) := by positivity
            by_cases hi2 : i = 2
            · subst hi2; norm_num at *; omega
            · have h4 : (2 : Int) ≤ 2 ^ (i - 1) := by
                rw [pow_step (i := i - 1) (by omega)]
                have : (0 : Int) < 2 ^ (i - 1 - 1) := by positivity
                omega
              omega
        · intro hm2 c hc hcm
          by_contra hlt3
          have : c = i - 1 := by omega
          subst this
          by_cases hi : i = 32
          · subst hi; simp only [supval] at hlt2; norm_num at hlt2; omega
          · rw [supval_pow (by omega)] at hlt2; omega
    · rw [if_neg hlt]
      have h32 : i ≠ 32 := by
        intro hi; subst hi; simp [supval] at hlt; omega
      rw [supval_pow (by omega)] at hlt
      obtain ⟨b, b1, b2, b3, b4, b5⟩ := ih (i + 1) (by omega) (by omega) (by
        rw [show i + 1 - 2 = i - 1 by omega]; omega)
      refine ⟨b, b1, by omega, b3, b4, ?_⟩
      intro hm2 c hc hcm
      refine b5 hm2 c ?_ hcm
      by_contra hc2
      have : c = i - 1 := by omega
      subst this
      omega

theorem bits_spec (mx : Int) (hmx : 0 ≤ mx) (hm : mx < 2147483647) (n : Nat) (h1 : 1 ≤ n) (h2 : n ≤ 32) :
    ∃ b, bits mx n = (b, false) ∧ n ≤ b ∧ b ≤ 32 ∧ mx ≤ 2 ^ b - 2 ∧
      (mx < 2147483646 → ∀ c, n ≤ c → mx ≤ 2 ^ c - 2 → b ≤ c) := by
  unfold bits
  by_cases hs : supval n ≤ mx
  · rw [if_pos hs]
    have h32 : n ≠ 32 := by
      intro hi; subst hi; simp [supval] at hs; omega
    rw [supval_pow (by omega)] at hs
    obtain ⟨b, b1, b2, b3, b4, b5⟩ := scan_spec mx hmx hm (32 - n) (n + 1) (by omega) (by omega) (by
      rw [show n + 1 - 2 = n - 1 by omega]; exact hs)
    rw [b1]
    exact ⟨b, rfl, by omega, b3, b4, fun hm2 c hc => b5 hm2 c (by omega)⟩
  · rw [if_neg hs]
    refine ⟨n, rfl, le_refl _, h2, ?_, fun _ c hc _ => hc⟩
    by_cases hi : n = 32
    · subst hi; norm_num; omega
    · rw [supval_pow (by omega)] at hs
      have := pow_step (i := n) (by omega)
      have hp : (0 : Int) < 2 ^ (n - 1) := by positivity
      omega

/-- C147.  For data of type 1, 2 or 4 of absolute value below 2 ** 31 - 1, the function returns.  Without error there are
bits enough: each value is at most 2 ** NBIT - 2, so that all bits set to one mean a missing value; with values
below -1 the type becomes 4 and one more bit is kept for the sign.  There are never fewer bits than asked for, and there
is an error only if signed values need more than 31 bits. -/
theorem C147 (nbit datyp : Int) (vals : List Int) (hd : datyp = 1 ∨ datyp = 2 ∨ datyp = 4) (hn : nbit ≤ 32)
    (hnt : ¬ (datyp = 2 ∧ nbit = 32)) (hv : ∀ v ∈ vals, |v| < 2147483647) :
    ∃ (b : Nat) (d : Int) (e : Bool), qrbnbdt nbit datyp vals = some ((b : Int), d, e) ∧ 1 ≤ b ∧ b ≤ 32 ∧ nbit ≤ b ∧
      (d = (if e then 2 else if ∃ v ∈ vals, v < -1 then 4 else datyp)) ∧
      (e = false → d ≠ 4 → ∀ v ∈ vals, -1 ≤ v ∧ v ≤ 2 ^ b - 2) ∧
      (e = false → d = 4 → 2 ≤ b ∧ b ≤ 31 ∧ ∀ v ∈ vals, v = -1 ∨ |v| ≤ 2 ^ (b - 1) - 2) ∧
      (e = true → b = 32 ∧ (datyp = 4 ∨ ∃ v ∈ vals, v < -1)) := by
  unfold qrbnbdt
  obtain ⟨h1, h2, h3, h4, h5⟩ := extent_go vals (0, 0)
  simp only at h1 h2 h4 h5
  change 0 ≤ (extent vals).1 at h1
  change (extent vals).2 ≤ 0 at h2
  change ∀ v ∈ vals, (extent vals).2 ≤ v ∧ v ≤ (extent vals).1 at h3
  change (extent vals).1 = 0 ∨ (extent vals).1 ∈ vals at h4
  change (extent vals).2 = 0 ∨ (extent vals).2 ∈ vals at h5
  generalize extent vals = E at *
  have hE1 : E.1 < 2147483647 := by
    rcases h4 with h | h
    · omega
    · have := hv _ h; have := le_abs_self E.1; omega
  have hE2 : |E.2| < 2147483647 := by
    rcases h5 with h | h
    · rw [h]; simp
    · exact hv _ h
  have hsm : E.2 < -1 ↔ ∃ v ∈ vals, v < -1 := by
    constructor
    · intro h
      rcases h5 with h5 | h5
      · omega
      · exact ⟨_, h5, h⟩
    · rintro ⟨v, hvm, hlt⟩
      have := (h3 v hvm).1; omega
  have hn1 : ∃ n : Nat, (if nbit ≤ 0 then 1 else nbit) = (n : Int) ∧ 1 ≤ n ∧ n ≤ 32 ∧ nbit ≤ n := by
    by_cases h : nbit ≤ 0
    · exact ⟨1, by simp [h], by omega, by omega, by omega⟩
    · exact ⟨nbit.toNat, by rw [if_neg h]; omega, by omega, by omega, by omega⟩
  obtain ⟨n, hne, n1, n2, n3⟩ := hn1
  have hc1 : ¬ ((datyp = 2 ∧ (n : Int) = 32) ∨ datyp = 0) := by
    rintro (⟨ha, hb⟩ | ha)
    · apply hnt
      refine ⟨ha, ?_⟩
      rw [← hne] at hb; split at hb <;> omega
    · clear hsm; omega
  simp only [hne]
  have hx0 : 0 ≤ max E.1 |E.2| := le_max_of_le_left h1
  have hx1 : max E.1 |E.2| < 2147483647 := max_lt hE1 hE2
  rw [if_neg hc1, if_neg (by clear hsm; omega), if_neg (by clear hsm; omega), if_neg (by clear hsm; omega)]
  by_cases hneg : E.2 < -1
  · have hex := hsm.mp hneg
    obtain ⟨b, b1, b2, b3, b4, b5⟩ := bits_spec (max E.1 |E.2|) hx0 hx1 n n1 n2
    simp only [if_pos hneg, Int.toNat_natCast, b1]
    rw [if_neg (not_lt.mpr hx1.le)]
    simp only [final, if_true]
    by_cases hb : b + 1 > 31
    · rw [if_pos hb]
      exact ⟨32, 2, true, rfl, by omega, by omega, by omega, by simp, by simp, by simp, fun _ => ⟨rfl, Or.inr hex⟩⟩
    · rw [if_neg hb]
      refine ⟨b + 1, 4, false, rfl, by omega, by omega, by omega, by simp [hex], by simp, ?_, by simp⟩
      intro _ _
      refine ⟨by omega, by omega, fun v hvm => ?_⟩
      rw [Nat.add_sub_cancel]
      obtain ⟨k1, k2⟩ := h3 v hvm
      have : |v| ≤ max E.1 |E.2| := by
        rw [abs_le]
        have := neg_abs_le E.2
        constructor <;> omega
      right; omega
  · have hex : ¬ ∃ v ∈ vals, v < -1 := fun h => hneg (hsm.mpr h)
    obtain ⟨b, b1, b2, b3, b4, b5⟩ := bits_spec E.1 h1 hE1 n n1 n2
    simp only [if_neg hneg, Int.toNat_natCast, b1]
    rw [if_neg (by omega)]
    by_cases h4' : datyp = 4
    · simp only [final, h4', if_true]
      by_cases hb : b + 1 > 31
      · rw [if_pos hb]
        exact ⟨32, 2, true, rfl, by omega, by omega, by omega, by simp, by simp, by simp, fun _ => ⟨rfl, Or.inl trivial⟩⟩
      · rw [if_neg hb]
        refine ⟨b + 1, 4, false, rfl, by omega, by omega, by omega, by simp [hex], by simp, ?_, by simp⟩
        intro _ _
        refine ⟨by omega, by omega, fun v hvm => ?_⟩
        rw [Nat.add_sub_cancel]
        obtain ⟨k1, k2⟩ := h3 v hvm
        by_cases hv1 : v = -1
        · exact Or.inl hv1
        · right
          rw [abs_le]
          constructor <;> omega
    · simp only [final, h4', if_false]
      refine ⟨min b 32, datyp, false, rfl, by omega, by omega, by omega, by simp [hex], ?_, ?_, by simp⟩
      · intro _ _ v hvm
        rw [min_eq_left b3]
        obtain ⟨k1, k2⟩ := h3 v hvm
        omega
      · intro _ h; exact absurd h h4'

example : qrbnbdt 4 2 [3, -1, 14] = some (4, 2, false) ∧ qrbnbdt 4 2 [3, -1, 15] = some (5, 2, false) ∧
    qrbnbdt 1 2 [3, -5] = some (4, 4, false) ∧ qrbnbdt 1 4 [-1073741824] = some (32, 2, true) := by decide +kernel

/-- C147.  The number of bits is the least one, except for the largest value 2 ** 31 - 2: no number from NBIT on below it leaves
room for the values and the mark of missing ones. -/
theorem C147_least (nbit : Nat) (vals : List Int) (h1 : 1 ≤ nbit) (hn : nbit ≤ 31)
    (hv : ∀ v ∈ vals, -1 ≤ v ∧ v < 2147483646) : ∃ b : Nat, qrbnbdt nbit 2 vals = some ((b : Int), 2, false) ∧ nbit ≤ b ∧ b ≤ 32 ∧
      (∀ v ∈ vals, v ≤ 2 ^ b - 2) ∧ ∀ c : Nat, nbit ≤ c → (∀ v ∈ vals, v ≤ 2 ^ c - 2) → b ≤ c := by
  obtain ⟨k1, k2, k3, k4, k5⟩ := extent_go vals (0, 0)
  simp only at k1 k2 k4 k5
  change 0 ≤ (extent vals).1 at k1
  change ∀ v ∈ vals, (extent vals).2 ≤ v ∧ v ≤ (extent vals).1 at k3
  change (extent vals).1 = 0 ∨ (extent vals).1 ∈ vals at k4
  change (extent vals).2 = 0 ∨ (extent vals).2 ∈ vals at k5
  unfold qrbnbdt
  generalize extent vals = E at *
  have hE1 : E.1 < 2147483646 := by
    rcases k4 with h | h
    · omega
    · exact (hv _ h).2
  have hE2 : ¬ E.2 < -1 := by
    rcases k5 with h | h
    · omega
    · have := (hv _ h).1; omega
  obtain ⟨b, b1, b2, b3, b4, b5⟩ := bits_spec E.1 k1 (by omega) nbit h1 (by omega)
  rw [if_neg (show ¬ (nbit : Int) ≤ 0 by omega), if_neg (by omega), if_neg (by omega), if_neg (by omega), if_neg (by omega)]
  simp only [if_neg hE2, Int.toNat_natCast, b1]
  rw [if_neg (by omega)]
  refine ⟨b, ?_, b2, b3, fun v hvm => le_trans (k3 v hvm).2 b4, ?_⟩
  · simp only [final]
    rw [if_neg (by norm_num), min_eq_left b3]
  · intro c hc hcv
    apply b5 hE1 c hc
    rcases k4 with h | h
    · rw [h, pow_step (i := c) (by omega)]
      have : (0 : Int) < 2 ^ (c - 1) := by positivity
      omega
    · exact hcv _ h

/-- C147.  The value 2 ** 31 - 1: there is an error, and the message says that 32 bits are used, but NBIT is what was asked
for.  The value 2 ** 31 - 2 gets 32 bits although 31 are enough. -/
theorem C147_largest_witness : qrbnbdt 1 2 [2147483647] = some (1, 2, true) ∧ qrbnbdt 5 4 [2147483647] = some (6, 4, true) ∧
    qrbnbdt 1 2 [2147483646] = some (32, 2, false) := by decide +kernel

/-- C147.  -2 ** 31 overflows, and more than 32 bits read behind the table. -/
theorem C147_fault_witness : qrbnbdt 1 2 [-2147483648] = none ∧ qrbnbdt 33 2 [1] = none := by decide +kernel

end Verif.Qrbnbdt
