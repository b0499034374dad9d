import Verif.FloatPacker
import Mathlib.Tactic.Linarith
import Mathlib.Tactic.Ring
import Mathlib.Data.Int.Basic

/-! C41: packing floats with one exponent and 16-bit tokens. -/
namespace Props.FloatPacker
open Verif.FloatPacker

/-- A float that is not infinite and not NaN. -/
def Finite (b : F32) : Prop := expo b ≠ 255

/-- `r` is a finite float nearest to `x` (in units of 2^-149). -/
def Nearest (x : Int) (r : F32) : Prop := Finite r ∧ ∀ c, Finite c → (val r - x).natAbs ≤ (val c - x).natAbs

/-- Subtraction of floats: a nearest float to the difference, whatever the rounding of ties. -/
def IsSub (sub : F32 → F32 → F32) : Prop := ∀ a b, Finite a → Finite b → Nearest (val a - val b) (sub a b)

theorem mk_fields (s : Bool) (e f : Nat) (he : e < 256) (hf : f < 2 ^ 23) :
    expo (mk s e f) = e ∧ frac (mk s e f) = f ∧ neg (mk s e f) = s := by
  have hn : (mk s e f).toNat = (if s then 2 ^ 31 else 0) + e * 2 ^ 23 + f := by
    unfold mk
    rw [BitVec.toNat_ofNat]
    apply Nat.mod_eq_of_lt
    cases s <;> simp only [if_true, Bool.false_eq_true, if_false] <;> omega
  unfold expo frac neg
  rw [hn]
  cases s <;> simp only [if_true, Bool.false_eq_true, if_false] <;> refine ⟨by omega, by omega, ?_⟩
  · simp; omega
  · simp only [beq_iff_eq]; omega

theorem frac_lt (b : F32) : frac b < 2 ^ 23 := Nat.mod_lt _ (by decide)
theorem expo_lt (b : F32) : expo b < 256 := Nat.mod_lt _ (by decide)

theorem val_mk (s : Bool) (e f : Nat) (he : 1 ≤ e) (he' : e < 256) (hf : f < 2 ^ 23) :
    val (mk s e f) = (if s then -1 else 1) * (((2 ^ 23 + f) * 2 ^ (e - 1) : Nat) : Int) := by
  obtain ⟨h1, h2, h3⟩ := mk_fields s e f he' hf
  unfold val
  have h0 : ¬ e = 0 := by omega
  simp only [h1, h2, h3, h0, if_false]
  cases s <;> simp

/-- Every product of 24 bits and a power of two in range is a float. -/
theorem representable (s : Bool) : ∀ (e : Nat), 1 ≤ e → e < 255 → ∀ m : Nat, m < 2 ^ 24 →
    ∃ c, Finite c ∧ val c = (if s then -1 else 1) * ((m * 2 ^ (e - 1) : Nat) : Int) := by
  intro e
  induction e with
  | zero => intro h; omega
  | succ e ih =>
    intro h1 h2 m hm
    by_cases hb : 2 ^ 23 ≤ m
    · refine ⟨mk s (e + 1) (m - 2 ^ 23), ?_, ?_⟩
      · unfold Finite; rw [(mk_fields s (e + 1) (m - 2 ^ 23) (by omega) (by omega)).1]; omega
      · rw [val_mk s (e + 1) _ h1 (by omega) (by omega), show 2 ^ 23 + (m - 2 ^ 23) = m by omega]
    · by_cases he : e = 0
      · subst he
        obtain ⟨g1, g2, g3⟩ := mk_fields s 0 m (by omega) (by omega)
        refine ⟨mk s 0 m, by unfold Finite; omega, ?_⟩
        unfold val
        rw [g1, g2, g3]
        cases s <;> simp
      · obtain ⟨c, hc, hv⟩ := ih (by omega) (by omega) (2 * m) (by omega)
        refine ⟨c, hc, ?_⟩
        rw [hv]
        have : 2 ^ (e + 1 - 1) = 2 * 2 ^ (e - 1) := by
          rw [show e + 1 - 1 = (e - 1) + 1 by omega, Nat.pow_succ]; omega
        rw [this]
        congr 2
        ring

theorem nearest_exact {x : Int} {r : F32} (h : Nearest x r) (hc : ∃ c, Finite c ∧ val c = x) : val r = x := by
  obtain ⟨c, hf, hv⟩ := hc
  have := h.2 c hf
  rw [hv] at this
  omega

/-- Decoding gives the mantissa times the unit. -/
theorem decode_val {sub : F32 → F32 → F32} (hsub : IsSub sub) (maxExp sh : Nat) (minimum : Int) (tok : Nat)
    (h1 : 1 ≤ maxExp) (h2 : maxExp < 255) :
    val (decode sub maxExp sh minimum tok) =
      (if ((tok * 2 ^ sh : Nat) : Int) + minimum < 0 then -1 else 1) *
        ((min (((tok * 2 ^ sh : Nat) : Int) + minimum).natAbs 0xFFFFFF * 2 ^ (maxExp - 1) : Nat) : Int) := by
  unfold decode
  dsimp only
  generalize hM : ((tok * 2 ^ sh : Nat) : Int) + minimum = M
  generalize hm : min M.natAbs 0xFFFFFF = m
  have hlt : m < 2 ^ 24 := by omega
  by_cases hb : m / 2 ^ 23 % 2 = 1
  · rw [if_pos hb, val_mk _ _ _ h1 (by omega) (by omega)]
    have : 2 ^ 23 + m % 2 ^ 23 = m := by omega
    rw [this]
    by_cases hs : M < 0 <;> simp [hs]
  · rw [if_neg hb]
    have hm' : m % 2 ^ 23 = m := by omega
    rw [hm']
    have hf1 : Finite (mk (decide (M < 0)) maxExp m) := by
      unfold Finite; rw [(mk_fields _ maxExp m (by omega) (by omega)).1]; omega
    have hf2 : Finite (mk (decide (M < 0)) maxExp 0) := by
      unfold Finite; rw [(mk_fields _ maxExp 0 (by omega) (by omega)).1]; omega
    have hd : val (mk (decide (M < 0)) maxExp m) - val (mk (decide (M < 0)) maxExp 0) =
        (if M < 0 then -1 else 1) * ((m * 2 ^ (maxExp - 1) : Nat) : Int) := by
      rw [val_mk _ _ _ h1 (by omega) (by omega), val_mk _ _ _ h1 (by omega) (by omega)]
      by_cases hs : M < 0 <;> simp [hs] <;> ring
    have hn := hsub _ _ hf1 hf2
    rw [hd] at hn
    apply nearest_exact hn
    obtain ⟨c, hc, hv⟩ := representable (decide (M < 0)) maxExp h1 h2 m hlt
    refine ⟨c, hc, ?_⟩
    rw [hv]
    by_cases hs : M < 0 <;> simp [hs]

/-- The aligned mantissa is the value divided by the unit, rounded toward zero. -/
theorem norm_eq (E : Nat) (b : F32) (hE : 1 ≤ E) (hle : expo b ≤ E) (hz : 24 ≤ E ∨ expo b ≠ 0) :
    norm E b = (val b).tdiv (2 ^ (E - 1) : Nat) := by
  have hf := frac_lt b
  have key : (2 ^ 23 + frac b) / 2 ^ (min (E - expo b) 31) =
      (if expo b = 0 then frac b else (2 ^ 23 + frac b) * 2 ^ (expo b - 1)) / 2 ^ (E - 1) := by
    have hcut : ∀ k, 24 ≤ k → (2 ^ 23 + frac b) / 2 ^ k = 0 := by
      intro k hk
      apply Nat.div_eq_of_lt
      have : 2 ^ 24 ≤ 2 ^ k := Nat.pow_le_pow_right (by omega) hk
      omega
    by_cases he : expo b = 0
    · rw [if_pos he, he, hcut _ (by omega), Nat.div_eq_of_lt]
      have : 2 ^ 23 ≤ 2 ^ (E - 1) := Nat.pow_le_pow_right (by omega) (by omega)
      omega
    · rw [if_neg he]
      have hpow : 2 ^ (E - 1) = 2 ^ (E - expo b) * 2 ^ (expo b - 1) := by
        rw [← Nat.pow_add]; congr 1; omega
      rw [hpow, Nat.mul_div_mul_right _ _ (by positivity)]
      by_cases hs : E - expo b ≤ 31
      · rw [Nat.min_eq_left hs]
      · rw [hcut _ (by omega), hcut _ (by omega)]
  unfold norm val
  rw [key]
  dsimp only
  split
  · rw [Int.neg_tdiv, Int.ofNat_tdiv]
  · rw [Int.ofNat_tdiv]

theorem natAbs_val (b : F32) :
    (val b).natAbs = if expo b = 0 then frac b else (2 ^ 23 + frac b) * 2 ^ (expo b - 1) := by
  unfold val
  dsimp only
  cases neg b
  · simp only [Bool.false_eq_true, if_false]; exact Int.natAbs_natCast _
  · simp only [if_true, Int.natAbs_neg]; exact Int.natAbs_natCast _

theorem val_lt (b : F32) (E : Nat) (hE : 1 ≤ E) (h : expo b ≤ E) : (val b).natAbs < 2 ^ 24 * 2 ^ (E - 1) := by
  rw [natAbs_val]
  have hf := frac_lt b
  have hp : 0 < 2 ^ (E - 1) := by positivity
  split
  · have : 2 ^ 24 * 1 ≤ 2 ^ 24 * 2 ^ (E - 1) := Nat.mul_le_mul_left _ hp
    omega
  · have h1 : 2 ^ (expo b - 1) ≤ 2 ^ (E - 1) := Nat.pow_le_pow_right (by omega) (by omega)
    have h2 : 0 < 2 ^ (expo b - 1) := by positivity
    calc (2 ^ 23 + frac b) * 2 ^ (expo b - 1) < 2 ^ 24 * 2 ^ (expo b - 1) :=
          Nat.mul_lt_mul_of_pos_right (by omega) h2
      _ ≤ _ := Nat.mul_le_mul_left _ h1

/-- Larger values have larger exponents. -/
theorem expo_mono {a b : F32} (h : (val a).natAbs ≤ (val b).natAbs) : expo a ≤ expo b := by
  apply Nat.le_of_not_lt
  intro hc
  have hb : (val b).natAbs < 2 ^ 23 * 2 ^ (expo a - 1) := by
    by_cases h0 : expo b = 0
    · rw [natAbs_val, if_pos h0]
      have hf := frac_lt b
      have : 2 ^ 23 * 1 ≤ 2 ^ 23 * 2 ^ (expo a - 1) := Nat.mul_le_mul_left _ (Nat.one_le_two_pow)
      omega
    · have := val_lt b (expo b) (by omega) (Nat.le_refl _)
      have h2 : 2 ^ (expo b) ≤ 2 ^ (expo a - 1) := Nat.pow_le_pow_right (by omega) (by omega)
      have h3 : 2 ^ (expo b) = 2 * 2 ^ (expo b - 1) := by
        rw [show expo b = (expo b - 1) + 1 by omega, Nat.pow_succ]; simp; omega
      omega
  have ha : 2 ^ 23 * 2 ^ (expo a - 1) ≤ (val a).natAbs := by
    rw [natAbs_val, if_neg (by omega)]
    exact Nat.mul_le_mul_right _ (by omega)
  omega

theorem minOf_spec (src : List F32) : ∀ z, (minOf z src = z ∨ minOf z src ∈ src) ∧
    val (minOf z src) ≤ val z ∧ ∀ x ∈ src, val (minOf z src) ≤ val x := by
  induction src with
  | nil => intro z; exact ⟨Or.inl rfl, Int.le_refl _, by simp⟩
  | cons y t ih =>
    intro z
    have hd : minOf z (y :: t) = minOf (if val z > val y then y else z) t := rfl
    rw [hd]
    have hy : val (if val z > val y then y else z) ≤ val z ∧ val (if val z > val y then y else z) ≤ val y := by split <;> omega
    obtain ⟨h1, h2, h3⟩ := ih (if val z > val y then y else z)
    refine ⟨?_, ?_, ?_⟩
    · rcases h1 with h1 | h1
      · rw [h1]
        split
        · right; exact List.mem_cons_self ..
        · left; rfl
      · right; exact List.mem_cons_of_mem _ h1
    · first | exact Int.le_trans h2 hy.1 | exact Int.le_trans hy.1 h2
    · intro x hx
      rcases List.mem_cons.1 hx with rfl | hx
      · first | exact Int.le_trans h2 hy.2 | exact Int.le_trans hy.2 h2
      · exact h3 x hx

theorem maxOf_spec (src : List F32) : ∀ z, (maxOf z src = z ∨ maxOf z src ∈ src) ∧
    val z ≤ val (maxOf z src) ∧ ∀ x ∈ src, val x ≤ val (maxOf z src) := by
  induction src with
  | nil => intro z; exact ⟨Or.inl rfl, Int.le_refl _, by simp⟩
  | cons y t ih =>
    intro z
    have hd : maxOf z (y :: t) = maxOf (if val z < val y then y else z) t := rfl
    rw [hd]
    have hy : val z ≤ val (if val z < val y then y else z) ∧ val y ≤ val (if val z < val y then y else z) := by split <;> omega
    obtain ⟨h1, h2, h3⟩ := ih (if val z < val y then y else z)
    refine ⟨?_, ?_, ?_⟩
    · rcases h1 with h1 | h1
      · rw [h1]
        split
        · right; exact List.mem_cons_self ..
        · left; rfl
      · right; exact List.mem_cons_of_mem _ h1
    · first | exact Int.le_trans h2 hy.1 | exact Int.le_trans hy.1 h2
    · intro x hx
      rcases List.mem_cons.1 hx with rfl | hx
      · first | exact Int.le_trans h2 hy.2 | exact Int.le_trans hy.2 h2
      · exact h3 x hx

theorem shift2_spec (mask : Int) (hm : 0 ≤ mask) : ∀ (fuel : Nat) (d : Int), 0 ≤ d → d < 2 ^ fuel →
    shift2 mask fuel d ≤ fuel ∧ d / 2 ^ shift2 mask fuel d ≤ mask ∧
    (shift2 mask fuel d ≠ 0 → mask < d / 2 ^ (shift2 mask fuel d - 1)) := by
  intro fuel
  induction fuel with
  | zero =>
    intro d h0 h1
    have : d = 0 := by simp at h1; omega
    subst this
    simp [shift2, hm]
  | succ fuel ih =>
    intro d h0 h1
    unfold shift2
    by_cases hc : d > mask
    · rw [if_pos hc]
      obtain ⟨a, b, c⟩ := ih (d / 2) (by omega) (by rw [pow_succ] at h1; omega)
      refine ⟨by omega, ?_, ?_⟩
      · rw [pow_succ, mul_comm, ← Int.ediv_ediv_of_nonneg (by omega)]; exact b
      · intro _
        rw [Nat.add_sub_cancel]
        by_cases hs : shift2 mask fuel (d / 2) = 0
        · rw [hs]; simpa using hc
        · have := c hs
          rw [Int.ediv_ediv_of_nonneg (by omega)] at this
          rw [show shift2 mask fuel (d / 2) = (shift2 mask fuel (d / 2) - 1) + 1 by omega, pow_succ, mul_comm]
          exact this
    · rw [if_neg hc]
      simp; omega

/-- A token is within a quantum of the mantissa, and fits. -/
theorem token_spec (minimum mask m maxi : Int) (s : Nat) (hmask : 0 ≤ mask) (h0 : minimum ≤ m) (h1 : m ≤ maxi)
    (h2 : (maxi - minimum) / 2 ^ s ≤ mask) :
    0 ≤ token minimum s mask m ∧ token minimum s mask m ≤ mask ∧
    (token minimum s mask m * 2 ^ s + minimum - m).natAbs < 2 ^ s := by
  unfold token
  have hP : (1 : Int) ≤ 2 ^ s := by
    have : (0 : Int) < 2 ^ s := by positivity
    omega
  have hc : ((2 ^ s / 2 : Nat) : Int) = (2 ^ s : Int) / 2 := by push_cast; rfl
  have hn : ((2 ^ s : Nat) : Int) = (2 : Int) ^ s := by push_cast; rfl
  rw [hc]
  generalize hPd : (2 : Int) ^ s = P at *
  generalize hq : (m - minimum + P / 2) / P = q
  have e1 : P * q ≤ m - minimum + P / 2 := by rw [← hq]; exact Int.mul_ediv_self_le (by omega)
  have e2 : m - minimum + P / 2 < P * q + P := by
    rw [← hq]; exact Int.lt_mul_ediv_self_add (by omega)
  have e3 : maxi - minimum < P * mask + P := by
    have := Int.lt_mul_ediv_self_add (x := maxi - minimum) (k := P) (by omega)
    have : P * ((maxi - minimum) / P) ≤ P * mask := mul_le_mul_of_nonneg_left h2 (by omega)
    omega
  have hq0 : 0 ≤ q := by rw [← hq]; exact Int.ediv_nonneg (by omega) (by omega)
  refine ⟨by omega, by omega, ?_⟩
  by_cases hle : q ≤ mask
  · rw [min_eq_left hle, mul_comm q P]
    have : (2 ^ s : Nat) = P.toNat := by rw [← hn]; rfl
    rw [this]; omega
  · rw [min_eq_right (by omega), mul_comm mask P]
    have e4 : P * mask + P ≤ P * q := by
      have : P * (mask + 1) ≤ P * q := mul_le_mul_of_nonneg_left (by omega) (by omega)
      rw [mul_add, mul_one] at this; exact this
    have : (2 ^ s : Nat) = P.toNat := by rw [← hn]; rfl
    rw [this]; omega

theorem tokens_words (l : List Nat) (h : ∀ t ∈ l, t < 2 ^ 16) : tokens l.length (words l) = l := by
  induction l using words.induct with
  | case1 => rfl
  | case2 a =>
    have := h a (List.mem_cons_self ..)
    simp only [words, tokens, List.length_cons, List.length_nil, BitVec.toNat_ofNat, Nat.shiftLeft_eq]
    congr 1; omega
  | case3 a b t ih =>
    have ha := h a (List.mem_cons_self ..)
    have hb := h b (by simp)
    have hor : a <<< 16 ||| b = a * 2 ^ 16 + b := by
      rw [← Nat.shiftLeft_add_eq_or_of_lt hb, Nat.shiftLeft_eq]
    simp only [words, tokens, List.length_cons, hor, BitVec.toNat_ofNat]
    rw [ih (fun t ht => h t (by simp [ht]))]
    congr 1
    · omega
    · congr 1; omega

/-- The header gives its fields back. -/
theorem header_fields (n E s : Nat) (hn : n < 16) (hE : E < 256) (hs : s < 256) :
    (BitVec.ofNat 32 (0xEFF <<< 20 ||| (n <<< 16 ||| ((E % 256) <<< 8 ||| s % 256)))).toNat =
      0xEFF * 2 ^ 20 + n * 2 ^ 16 + E * 2 ^ 8 + s := by
  rw [← Nat.shiftLeft_add_eq_or_of_lt (by omega : s % 256 < 2 ^ 8),
    ← Nat.shiftLeft_add_eq_or_of_lt (by rw [Nat.shiftLeft_eq]; omega : (E % 256) <<< 8 + s % 256 < 2 ^ 16),
    ← Nat.shiftLeft_add_eq_or_of_lt
      (by simp only [Nat.shiftLeft_eq]; omega : n <<< 16 + ((E % 256) <<< 8 + s % 256) < 2 ^ 20)]
  simp only [Nat.shiftLeft_eq, BitVec.toNat_ofNat]
  omega

theorem unpack_fields (sub : F32 → F32 → F32) (n E s : Nat) (mi : Int) (toks : List Nat) (hn : n < 16)
    (hE1 : 1 ≤ E) (hE : E < 256) (hs : s < 256) (ht : ∀ t ∈ toks, t < 2 ^ 16) :
    unpack sub
      ⟨BitVec.ofNat 32 (0xEFF <<< 20 ||| (n <<< 16 ||| ((E % 256) <<< 8 ||| s % 256))), mi, toks.length, words toks⟩
      toks.length = some (toks.map (decode sub E s mi), n + 1) := by
  have hh := header_fields n E s hn hE hs
  unfold unpack
  simp only [hh]
  have a0 : (0xEFF * 2 ^ 20 + n * 2 ^ 16 + E * 2 ^ 8 + s) / 2 ^ 20 % 2 ^ 12 = 0xEFF := by omega
  have a1 : (0xEFF * 2 ^ 20 + n * 2 ^ 16 + E * 2 ^ 8 + s) / 2 ^ 8 % 2 ^ 8 = E := by omega
  have a2 : (0xEFF * 2 ^ 20 + n * 2 ^ 16 + E * 2 ^ 8 + s) % 2 ^ 8 = s := by omega
  have a3 : (0xEFF * 2 ^ 20 + n * 2 ^ 16 + E * 2 ^ 8 + s) / 2 ^ 16 % 2 ^ 4 = n := by omega
  rw [a0, a1, a2, a3, if_neg (by simp), if_neg (by simp), if_neg (by omega), tokens_words toks ht]

/-! ### The field -/

theorem tdiv_mono {a b : Int} (u : Nat) (hu : 0 < u) (h : a ≤ b) : a.tdiv u ≤ b.tdiv u := by
  have hu' : (0 : Int) < u := by omega
  rcases Int.le_total 0 a with ha | ha
  · rw [Int.tdiv_eq_ediv_of_nonneg ha, Int.tdiv_eq_ediv_of_nonneg (by omega)]
    exact Int.ediv_le_ediv hu' h
  · rcases Int.le_total 0 b with hb | hb
    · have h1 : a.tdiv u ≤ 0 := by
        have e1 : a.tdiv u = -((-a) / (u : Int)) := by
          rw [← Int.tdiv_eq_ediv_of_nonneg (by omega), Int.neg_tdiv]; omega
        have := Int.ediv_nonneg (a := -a) (b := u) (by omega) (by omega)
        omega
      have h2 : 0 ≤ b.tdiv u := Int.tdiv_nonneg hb (by omega)
      omega
    · have e1 : a.tdiv u = -((-a) / (u : Int)) := by
        rw [← Int.tdiv_eq_ediv_of_nonneg (by omega), Int.neg_tdiv]; omega
      have e2 : b.tdiv u = -((-b) / (u : Int)) := by
        rw [← Int.tdiv_eq_ediv_of_nonneg (by omega), Int.neg_tdiv]; omega
      rw [e1, e2]
      have := Int.ediv_le_ediv hu' (show -b ≤ -a by omega)
      omega

theorem tdiv_err (a : Int) (u : Nat) (hu : 0 < u) : (a.tdiv u * u - a).natAbs < u := by
  have h := Int.tmod_add_mul_tdiv a u
  have h2 : (a.tmod u).natAbs < u := by
    rw [Int.natAbs_tmod]; simpa using Nat.mod_lt _ hu
  rw [mul_comm] at h
  have : a.tdiv u * u - a = -(a.tmod u) := by linarith
  rw [this, Int.natAbs_neg]; exact h2

theorem tdiv_lt (a : Int) (u k : Nat) (hu : 0 < u) (h : a.natAbs < k * u) : (a.tdiv u).natAbs < k := by
  rw [Int.natAbs_tdiv]
  simp only [Int.natAbs_natCast]
  exact (Nat.div_lt_iff_lt_mul hu).2 h

/-- What is known of the field once packed. -/
theorem field (z : F32) (rest : List F32) (hfin : ∀ b ∈ z :: rest, Finite b)
    (hz : (∃ b ∈ z :: rest, 24 ≤ expo b) ∨ ∀ b ∈ z :: rest, expo b ≠ 0) :
    ∃ E : Nat, 1 ≤ E ∧ E < 255 ∧
      E = max (expo (maxOf z (z :: rest))) (expo (minOf z (z :: rest))) ∧
      (∀ b ∈ z :: rest, expo b ≤ E ∧ norm E b = (val b).tdiv (2 ^ (E - 1) : Nat)) ∧
      normExtreme E (minOf z (z :: rest)) = (val (minOf z (z :: rest))).tdiv (2 ^ (E - 1) : Nat) ∧
      normExtreme E (maxOf z (z :: rest)) = (val (maxOf z (z :: rest))).tdiv (2 ^ (E - 1) : Nat) ∧
      minOf z (z :: rest) ∈ z :: rest ∧ maxOf z (z :: rest) ∈ z :: rest ∧
      (∀ b ∈ z :: rest, val (minOf z (z :: rest)) ≤ val b ∧ val b ≤ val (maxOf z (z :: rest))) := by
  obtain ⟨m1, m2, m3⟩ := minOf_spec (z :: rest) z
  obtain ⟨M1, M2, M3⟩ := maxOf_spec (z :: rest) z
  have hmin : minOf z (z :: rest) ∈ z :: rest := by
    rcases m1 with h | h
    · rw [h]; exact List.mem_cons_self ..
    · exact h
  have hmax : maxOf z (z :: rest) ∈ z :: rest := by
    rcases M1 with h | h
    · rw [h]; exact List.mem_cons_self ..
    · exact h
  generalize minOf z (z :: rest) = lo at *
  generalize maxOf z (z :: rest) = hi at *
  have hle : ∀ b ∈ z :: rest, expo b ≤ max (expo hi) (expo lo) := by
    intro b hb
    have h1 := m3 b hb
    have h2 := M3 b hb
    by_cases hc : (val b).natAbs ≤ (val hi).natAbs
    · exact Nat.le_trans (expo_mono hc) (by omega)
    · have : (val b).natAbs ≤ (val lo).natAbs := by omega
      exact Nat.le_trans (expo_mono this) (by omega)
  have hE : 24 ≤ max (expo hi) (expo lo) ∨ ∀ b ∈ z :: rest, expo b ≠ 0 := by
    rcases hz with ⟨b, hb, h⟩ | h
    · left; have := hle b hb; omega
    · exact Or.inr h
  have h1 : 1 ≤ max (expo hi) (expo lo) := by
    rcases hE with h | h
    · omega
    · have := h lo hmin; omega
  have hnorm : ∀ b ∈ z :: rest, norm (max (expo hi) (expo lo)) b =
      (val b).tdiv (2 ^ (max (expo hi) (expo lo) - 1) : Nat) := by
    intro b hb
    exact norm_eq _ b h1 (hle b hb) (hE.imp id fun h => h b hb)
  have hext : ∀ b ∈ z :: rest, normExtreme (max (expo hi) (expo lo)) b =
      (val b).tdiv (2 ^ (max (expo hi) (expo lo) - 1) : Nat) := by
    intro b hb
    unfold normExtreme
    split
    · rename_i h0
      have h24 : 24 ≤ max (expo hi) (expo lo) := by
        rcases hE with h | h
        · exact h
        · exact absurd (by omega) (h b hb)
      have hlt : (val b).natAbs < 1 * 2 ^ (max (expo hi) (expo lo) - 1) := by
        rw [natAbs_val, if_pos (by omega), Nat.one_mul]
        have hf := frac_lt b
        have : 2 ^ 23 ≤ 2 ^ (max (expo hi) (expo lo) - 1) := Nat.pow_le_pow_right (by omega) (by omega)
        omega
      have := tdiv_lt _ _ 1 (by positivity) hlt
      omega
    · exact hnorm b hb
  have hf1 := hfin hi hmax
  have hf2 := hfin lo hmin
  have := expo_lt hi
  have := expo_lt lo
  unfold Finite at hf1 hf2
  exact ⟨max (expo hi) (expo lo), h1, by omega, rfl, fun b hb => ⟨hle b hb, hnorm b hb⟩, hext lo hmin,
    hext hi hmax, hmin, hmax, fun b hb => ⟨m3 b hb, M3 b hb⟩⟩

/-- C41.  Every value comes back with an error below one quantum, a power of two times the unit of the
largest exponent in the field.  The quantum is this unit, or it is at most (range + unit) / 2^(nbits-1).
Values are in units of 2^-149; floats are subtracted with any rounding to nearest.  Partial: fields
that contain zeros or denormalised values must contain a value of at least 2^-103 (see
`C41_small_witness`); no infinities or NaNs; at least one value. -/
theorem C41_partial (sub : F32 → F32 → F32) (hsub : IsSub sub) (z : F32) (rest : List F32) (nbits : Nat)
    (hn : 1 ≤ nbits) (hn' : nbits ≤ 16) (hfin : ∀ b ∈ z :: rest, Finite b)
    (hz : (∃ b ∈ z :: rest, 24 ≤ expo b) ∨ ∀ b ∈ z :: rest, expo b ≠ 0) :
    ∃ (E s : Nat) (out : List F32),
      (∃ b ∈ z :: rest, expo b = E) ∧ (∀ b ∈ z :: rest, expo b ≤ E) ∧
      (s = 0 ∨ ∃ a ∈ z :: rest, ∃ b ∈ z :: rest,
        2 ^ s * 2 ^ (E - 1) * 2 ^ (nbits - 1) ≤ val a - val b + 2 ^ (E - 1)) ∧
      unpack sub (pack z rest nbits) (z :: rest).length = some (out, nbits) ∧
      out.length = (z :: rest).length ∧
      ∀ (i : Nat) (x y : F32), (z :: rest)[i]? = some x → out[i]? = some y →
        (val y - val x).natAbs < 2 ^ s * 2 ^ (E - 1) := by
  obtain ⟨E, hE1, hE2, hEd, hall, hlo, hhi, mlo, mhi, hbd⟩ := field z rest hfin hz
  have hu : 0 < 2 ^ (E - 1) := by positivity
  generalize hUd : 2 ^ (E - 1) = u at *
  have hmask : (0 : Int) ≤ 2 ^ nbits - 1 := by
    have : (0 : Int) < 2 ^ nbits := by positivity
    omega
  have hmask' : (2 : Int) ^ nbits - 1 < 2 ^ 16 := by
    have : (2 : Int) ^ nbits ≤ 2 ^ 16 := by exact pow_le_pow_right₀ (by omega) hn'
    omega
  -- the two extremes and the shift
  have hb24 : ∀ b ∈ z :: rest, ((val b).tdiv u).natAbs < 2 ^ 24 := by
    intro b hb
    apply tdiv_lt _ _ _ hu
    rw [← hUd]; exact val_lt b E hE1 (hall b hb).1
  have hd0 : normExtreme E (minOf z (z :: rest)) ≤ normExtreme E (maxOf z (z :: rest)) := by
    rw [hlo, hhi]; exact tdiv_mono u hu (Int.le_trans (hbd z (List.mem_cons_self ..)).1 (hbd z (List.mem_cons_self ..)).2)
  have l1 := hb24 _ mlo
  have l2 := hb24 _ mhi
  rw [← hlo] at l1
  rw [← hhi] at l2
  obtain ⟨s1, s2, s3⟩ := shift2_spec (2 ^ nbits - 1) hmask 32
    (normExtreme E (maxOf z (z :: rest)) - normExtreme E (minOf z (z :: rest))) (by omega)
    (by have : (2 : Int) ^ 25 ≤ 2 ^ 32 := by norm_num
        omega)
  generalize hsd : shift2 (2 ^ nbits - 1) 32
    (normExtreme E (maxOf z (z :: rest)) - normExtreme E (minOf z (z :: rest))) = s at s1 s2 s3
  -- tokens
  have htok : ∀ b ∈ z :: rest,
      0 ≤ token (normExtreme E (minOf z (z :: rest))) s (2 ^ nbits - 1) (norm E b) ∧
      token (normExtreme E (minOf z (z :: rest))) s (2 ^ nbits - 1) (norm E b) ≤ 2 ^ nbits - 1 ∧
      (token (normExtreme E (minOf z (z :: rest))) s (2 ^ nbits - 1) (norm E b) * 2 ^ s +
        normExtreme E (minOf z (z :: rest)) - norm E b).natAbs < 2 ^ s := by
    intro b hb
    refine token_spec _ _ _ (normExtreme E (maxOf z (z :: rest))) s hmask ?_ ?_ s2
    · rw [hlo, (hall b hb).2]; exact tdiv_mono u hu (hbd b hb).1
    · rw [hhi, (hall b hb).2]; exact tdiv_mono u hu (hbd b hb).2
  refine ⟨E, s, ((z :: rest).map fun x =>
    (token (normExtreme E (minOf z (z :: rest))) s (2 ^ nbits - 1) (norm E x)).toNat).map
      (decode sub E s (normExtreme E (minOf z (z :: rest)))), ?_, fun b hb => (hall b hb).1, ?_, ?_, ?_, ?_⟩
  · by_cases hc : expo (minOf z (z :: rest)) ≤ expo (maxOf z (z :: rest))
    · exact ⟨_, mhi, by omega⟩
    · exact ⟨_, mlo, by omega⟩
  · by_cases hs0 : s = 0
    · exact Or.inl hs0
    · right
      refine ⟨_, mhi, _, mlo, ?_⟩
      have h3 := s3 hs0
      have h4 : (2 : Int) ^ nbits * 2 ^ (s - 1) ≤
          normExtreme E (maxOf z (z :: rest)) - normExtreme E (minOf z (z :: rest)) := by
        have hp : (0 : Int) < 2 ^ (s - 1) := by positivity
        exact (Int.le_ediv_iff_mul_le hp).1 (by omega)
      have hdiv : ∀ b, expo b = E → (val b).tdiv u * u = val b := by
        intro b hb
        apply Int.tdiv_mul_cancel
        unfold val
        have h0 : ¬ E = 0 := by omega
        simp only [hb, h0, if_false, hUd]
        split
        · exact (Int.dvd_neg).2 (by push_cast; exact Dvd.intro_left _ rfl)
        · push_cast; exact Dvd.intro_left _ rfl
      have e1 := tdiv_err (val (maxOf z (z :: rest))) u hu
      have e2 := tdiv_err (val (minOf z (z :: rest))) u hu
      rw [hlo, hhi] at h4
      have e3 : ((val (maxOf z (z :: rest))).tdiv u - (val (minOf z (z :: rest))).tdiv u) * (u : Int) ≤
          val (maxOf z (z :: rest)) - val (minOf z (z :: rest)) + u := by
        rw [sub_mul]
        by_cases hc : expo (minOf z (z :: rest)) ≤ expo (maxOf z (z :: rest))
        · have := hdiv _ (show expo (maxOf z (z :: rest)) = E by omega)
          omega
        · have := hdiv _ (show expo (minOf z (z :: rest)) = E by omega)
          omega
      have hu' : (0 : Int) ≤ u := by omega
      have e4 := mul_le_mul_of_nonneg_right h4 hu'
      have e5 : (2 : Int) ^ s * (u : Int) * 2 ^ (nbits - 1) = 2 ^ nbits * 2 ^ (s - 1) * u := by
        obtain ⟨n', rfl⟩ : ∃ n', nbits = n' + 1 := ⟨nbits - 1, by omega⟩
        obtain ⟨s', rfl⟩ : ∃ s', s = s' + 1 := ⟨s - 1, by omega⟩
        simp only [Nat.add_sub_cancel, pow_succ]; ring
      have hcast : ((2 : Int) ^ (E - 1)) = u := by rw [← hUd]; push_cast; rfl
      rw [hcast, e5]
      exact Int.le_trans e4 e3
  · have := unpack_fields sub (nbits - 1) E s (normExtreme E (minOf z (z :: rest)))
      ((z :: rest).map fun x =>
        (token (normExtreme E (minOf z (z :: rest))) s (2 ^ nbits - 1) (norm E x)).toNat)
      (by omega) hE1 (by omega) (by omega) (by
        intro t ht
        obtain ⟨x, hx, rfl⟩ := List.mem_map.1 ht
        have := htok x hx
        omega)
    rw [List.length_map, show nbits - 1 + 1 = nbits by omega] at this
    rw [← this]
    unfold pack
    dsimp only
    rw [← hEd, hsd]
  · simp
  · intro i x y hx hy
    have hxm : x ∈ z :: rest := List.mem_of_getElem? hx
    rw [List.getElem?_map, List.getElem?_map, hx] at hy
    simp only [Option.map_some, Option.some.injEq] at hy
    obtain ⟨t0, t1, t2⟩ := htok x hxm
    have hm := hb24 x hxm
    rw [← (hall x hxm).2] at hm
    have hv := tdiv_err (val x) u hu
    rw [← (hall x hxm).2] at hv
    rw [← hy, decode_val hsub _ _ _ _ hE1 hE2, hUd]
    generalize token (normExtreme E (minOf z (z :: rest))) s (2 ^ nbits - 1) (norm E x) = t at t0 t1 t2
    generalize normExtreme E (minOf z (z :: rest)) = mi at *
    generalize norm E x = m at *
    have hM : ((t.toNat * 2 ^ s : Nat) : Int) = t * 2 ^ s := by
      push_cast; rw [Int.toNat_of_nonneg t0]
    rw [hM]
    generalize t * 2 ^ s + mi = M at *
    -- the clamped mantissa
    have hcl : ∃ M' : Int, (M' - m).natAbs < 2 ^ s ∧
        (if M < 0 then (-1 : Int) else 1) * ((min M.natAbs 0xFFFFFF * u : Nat) : Int) = M' * u := by
      refine ⟨(if M < 0 then (-1 : Int) else 1) * (min M.natAbs 0xFFFFFF : Nat), ?_, by push_cast; ring⟩
      split <;> omega
    obtain ⟨M', hM1, hM2⟩ := hcl
    rw [hM2]
    have hfin2 : (M' * u - val x).natAbs ≤ (M' - m).natAbs * u + (m * u - val x).natAbs := by
      have : M' * u - val x = (M' - m) * u + (m * u - val x) := by ring
      rw [this]
      refine Nat.le_trans (Int.natAbs_add_le _ _) ?_
      rw [Int.natAbs_mul]; simp
    have : (M' - m).natAbs * u + u ≤ 2 ^ s * u := by
      have : ((M' - m).natAbs + 1) * u ≤ 2 ^ s * u := Nat.mul_le_mul_right _ hM1
      rw [Nat.add_mul, Nat.one_mul] at this; exact this
    omega

/-- No `int` of the packer or the unpacker overflows. -/
theorem C41_no_overflow (z : F32) (rest : List F32) (nbits : Nat)
    (hn : 1 ≤ nbits) (hn' : nbits ≤ 16) (hfin : ∀ b ∈ z :: rest, Finite b)
    (hz : (∃ b ∈ z :: rest, 24 ≤ expo b) ∨ ∀ b ∈ z :: rest, expo b ≠ 0) :
    let E := max (expo (maxOf z (z :: rest))) (expo (minOf z (z :: rest)))
    let mi := normExtreme E (minOf z (z :: rest))
    let s := shift2 (2 ^ nbits - 1) 32 (normExtreme E (maxOf z (z :: rest)) - mi)
    ∀ b ∈ z :: rest, 0 ≤ (E : Int) - expo b ∧ (norm E b).natAbs < 2 ^ 24 ∧ s ≤ 25 ∧
      0 ≤ norm E b - mi ∧ norm E b - mi + (2 ^ s / 2 : Nat) < 2 ^ 26 ∧
      0 ≤ token mi s (2 ^ nbits - 1) (norm E b) ∧
      token mi s (2 ^ nbits - 1) (norm E b) * 2 ^ s < 2 ^ 26 := by
  obtain ⟨E, hE1, hE2, hEd, hall, hlo, hhi, mlo, mhi, hbd⟩ := field z rest hfin hz
  rw [← hEd]
  intro E'
  subst E'
  intro mi s b hb
  have hu : 0 < 2 ^ (E - 1) := by positivity
  have hb24 : ∀ b ∈ z :: rest, ((val b).tdiv (2 ^ (E - 1) : Nat)).natAbs < 2 ^ 24 := by
    intro b hb
    exact tdiv_lt _ _ _ hu (val_lt b E hE1 (hall b hb).1)
  have hmask : (0 : Int) ≤ 2 ^ nbits - 1 := by
    have : (0 : Int) < 2 ^ nbits := by positivity
    omega
  have l1 := hb24 _ mlo
  have l2 := hb24 _ mhi
  rw [← hlo] at l1
  rw [← hhi] at l2
  have l3 := hb24 _ hb
  rw [← (hall b hb).2] at l3
  have h0 : mi ≤ norm E b := by
    show normExtreme E _ ≤ _
    rw [hlo, (hall b hb).2]; exact tdiv_mono _ hu (hbd b hb).1
  have h1 : norm E b ≤ normExtreme E (maxOf z (z :: rest)) := by
    rw [hhi, (hall b hb).2]; exact tdiv_mono _ hu (hbd b hb).2
  have hmi : mi = normExtreme E (minOf z (z :: rest)) := rfl
  rw [← hmi] at l1
  obtain ⟨s1, s2, s3⟩ := shift2_spec (2 ^ nbits - 1) hmask 25
    (normExtreme E (maxOf z (z :: rest)) - mi) (by omega) (by omega)
  have hfuel : ∀ (k : Nat) (d : Int), 0 ≤ d → d < 2 ^ k → ∀ j, k ≤ j →
      shift2 (2 ^ nbits - 1) j d = shift2 (2 ^ nbits - 1) k d := by
    intro k
    induction k with
    | zero =>
      intro d hd0 hd1 j _
      have : d = 0 := by simp at hd1; omega
      subst this
      cases j with
      | zero => rfl
      | succ j => unfold shift2; rw [if_neg (by omega)]
    | succ k ih =>
      intro d hd0 hd1 j hj
      obtain ⟨j', rfl⟩ : ∃ j', j = j' + 1 := ⟨j - 1, by omega⟩
      unfold shift2
      split
      · rw [ih (d / 2) (by omega) (by rw [pow_succ] at hd1; omega) j' (by omega)]
      · rfl
  have hs : s = shift2 (2 ^ nbits - 1) 25 (normExtreme E (maxOf z (z :: rest)) - mi) :=
    hfuel 25 _ (by omega) (by omega) 32 (by omega)
  rw [← hs] at s1 s2 s3
  obtain ⟨t0, t1, t2⟩ := token_spec mi (2 ^ nbits - 1) (norm E b) _ s hmask h0 h1 s2
  have hp : 2 ^ s ≤ 2 ^ 25 := Nat.pow_le_pow_right (by omega) s1
  have hle := (hall b hb).1
  refine ⟨by omega, l3, s1, by omega, by omega, t0, ?_⟩
  by_cases hs0 : s = 0
  · rw [hs0] at t2 ⊢; simp only [pow_zero] at t2 ⊢; omega
  · omega

/-- There is such a subtraction. -/
theorem nearest_exists (x : Int) : ∃ r, Nearest x r := by
  classical
  have h : ∃ n, ∃ c, Finite c ∧ (val c - x).natAbs = n := ⟨_, 0#32, by unfold Finite; decide, rfl⟩
  obtain ⟨r, hr, hn⟩ := Nat.find_spec h
  refine ⟨r, hr, fun c hc => ?_⟩
  rw [hn]
  exact Nat.find_min' h ⟨c, hc, rfl⟩

theorem sub_exists : ∃ sub, IsSub sub := by
  choose f hf using nearest_exists
  exact ⟨fun a b => f (val a - val b), fun a b _ _ => hf _⟩

/-- A field with a negative value, a zero and different exponents: -3.75, 0, 1, 1000. -/
example : (∀ b ∈ [0xC0700000#32, 0#32, 0x3F800000#32, 0x447A0000#32], Finite b) ∧
    (∃ b ∈ [0xC0700000#32, 0#32, 0x3F800000#32, 0x447A0000#32], 24 ≤ expo b) := by
  refine ⟨?_, 0x447A0000#32, by simp, by decide⟩
  intro b hb
  simp only [List.mem_cons, List.not_mem_nil, or_false] at hb
  rcases hb with rfl | rfl | rfl | rfl <;> (unfold Finite; decide)

/-- It is packed with eight bits: tokens 0, 1, 1, 251 in units of 4. -/
example : (pack 0xC0700000#32 [0#32, 0x3F800000#32, 0x447A0000#32] 8).stream = [0x00000001#32, 0x000100fb#32] := by
  decide +kernel

/-- The condition on small values is needed: a zero next to 1.5 * 2^-126 comes back as 2^-127, although
sixteen bits are kept and the range divided by 2^15 is 384 units. -/
theorem C41_small_witness (sub : F32 → F32 → F32) (hsub : IsSub sub) :
    ∃ y y', unpack sub (pack 0#32 [0x00C00000#32] 16) 2 = some ([y, y'], 16) ∧ val 0#32 = 0 ∧
      val 0x00C00000#32 = 12582912 ∧ val y = 2 ^ 22 := by
  refine ⟨decode sub 1 8 0 16384, decode sub 1 8 0 49152, ?_, by decide, by decide, ?_⟩
  · have h0 : (pack 0#32 [0x00C00000#32] 16).h0 = 0xEFFF0108#32 := by decide +kernel
    have h1 : (pack 0#32 [0x00C00000#32] 16).h1 = 0 := by decide +kernel
    have h2 : (pack 0#32 [0x00C00000#32] 16).h2 = 2 := by decide +kernel
    have h3 : (pack 0#32 [0x00C00000#32] 16).stream = [0x4000C000#32] := by decide +kernel
    unfold unpack
    rw [h0, h1, h2, h3]
    rfl
  · rw [decode_val hsub _ _ _ _ (by omega) (by omega)]; decide

end Props.FloatPacker
