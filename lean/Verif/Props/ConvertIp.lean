import Verif.ConvertIp
import Verif.Props.Convip

/-!
C60, C61: three levels, times or other values coded in ip1, ip2 and ip3 come back.
-/
namespace Props.ConvertIp
open Verif.ConvertIp Verif.Convip Verif.Grid Props.Convip
open Props.Grid (Single Nearest nearest)

/-! ### One value -/

/-- Values of a kind whose code is in the new style and decoded as it was. -/
def Value (kind : Nat) (p : ℚ) : Prop :=
  (Single p ∧ Codable kind p ∧ ¬ (-(51 / 10 ^ 13) < p ∧ p < 0) ∧ ¬ (kind = 2 ∧ p = 0)) ∨
    (kind = 15 ∧ ∃ n : Int, 0 ≤ n ∧ n ≤ 2000000 ∧ p = n)

/-- How far a decoded value may be off. -/
def tol (kind : Nat) (p : ℚ) : ℚ :=
  |p| * (if 0 ≤ p ∧ kind ≠ 17 then 53 / 10 ^ 7 else 106 / 10 ^ 6) +
    (if (kind = 6 ∨ kind = 17) ∧ p < 10012 / 10000 then 12 / 10 ^ 4
     else if kind = 21 ∧ p < 10022 / 10 ^ 8 then 10022 / 10 ^ 8 else 7 / 10 ^ 12)

theorem decode_old (R : Rounding) (ip : Int) (h : ip ≤ 32767) :
    (decode R ip).1 = 0 ∨ (decode R ip).1 = 1 ∨ (decode R ip).1 = 2 ∨ (decode R ip).1 = 3 := by
  unfold decode
  rw [if_neg (by omega)]
  repeat' split
  all_goals simp

theorem pack_big {R : Rounding} (hR : Good R) (fuel kind : Nat) (q : ℚ) (ip : Int) (hkk : kind < 15)
    (h : (0 ≤ q ∧ q ≤ 10 ^ 10 ∧ (kind ≠ 0 ∨ q < 1000000)) ∨ (q < 0 ∧ -q ≤ 480000000 ∧ (kind ≠ 0 ∨ -q < 48000)))
    (he : pack R (fuel + 14) kind q = some ip) : 32767 < ip := by
  rcases h with ⟨h0, h1, h2⟩ | ⟨h0, h1, h2⟩
  · obtain ⟨T, k, hd, hp⟩ := pack_pos hR fuel kind q h0 h1
    obtain ⟨m0, m1⟩ := mant_range hd
    have hk := hd.hk
    rw [he] at hp
    rw [Option.some.inj hp]
    have := code_big (kind % 16) k (nint T).toNat (by omega) (by omega) (by
      rcases h2 with h2 | h2
      · left; omega
      · right
        intro hk0
        have := hd.big (by omega)
        push_cast at this
        linarith)
    exact_mod_cast this
  · obtain ⟨T, k, hd, hp⟩ := pack_neg hR fuel kind q h0 h1
    obtain ⟨m0, m1⟩ := mant_range hd
    have hk := hd.hk
    rw [he] at hp
    rw [Option.some.inj hp]
    have := code_big (kind % 16) k (1000000 + nint T).toNat (by omega) (by omega) (by
      rcases h2 with h2 | h2
      · left; omega
      · right
        intro hk0
        have := hd.big (by omega)
        push_cast at this
        linarith)
    exact_mod_cast this

theorem encode_plain {R : Rounding} (hR : Good R) (fuel kind : Nat) (p : ℚ) (hp : Single p) (hk : kind ≤ 3)
    (h1 : lowVal kind ≤ p) (h2 : p ≤ hiVal kind) (h0 : ¬ (kind = 2 ∧ p = 0)) :
    encodeNew R fuel kind p = pack R fuel kind p := by
  have hinv : invalidKind kind = false := by
    unfold invalidKind
    simp only [Bool.and_eq_false_imp, decide_eq_true_eq]
    omega
  have hf : factVal kind = 1 := by
    rcases (by omega : kind = 0 ∨ kind = 1 ∨ kind = 2 ∨ kind = 3) with rfl | rfl | rfl | rfl <;> rfl
  have hz : zeroVal R kind = 0 := by
    rcases (by omega : kind = 0 ∨ kind = 1 ∨ kind = 2 ∨ kind = 3) with rfl | rfl | rfl | rfl <;> rfl
  unfold encodeNew
  rw [hinv, hf, hz]
  simp only [Bool.false_eq_true, if_false, mul_one]
  rw [if_neg h0, if_neg (by omega), if_neg (by rw [not_or, not_lt, gt_iff_lt, not_lt]; exact ⟨h1, h2⟩),
    if_neg (by rw [not_lt]; exact abs_nonneg p), r8_single hR p hp]

/-- A value is coded in the new style and comes back. -/
theorem trip {R : Rounding} (hR : Good R) (fuel kind : Nat) (p : ℚ) (h : Value kind p) :
    ∃ ip p', encodeNew R (fuel + 14) kind p = some ip ∧ 32768 ≤ ip ∧ decode R ip = ((kind : Int), p') ∧
      |p' - p| ≤ tol kind p := by
  rcases h with ⟨hp, hc, hn, h0⟩ | ⟨rfl, n, n0, n1, rfl⟩
  · obtain ⟨ip, p', e1, e2, e3⟩ := C48_partial hR fuel kind p hp hc hn
    refine ⟨ip, p', e1, ?_, e2, ?_⟩
    · by_contra hlt
      have ho := decode_old R ip (by omega)
      rw [e2] at ho
      have hk : kind ≤ 3 := by
        simp only at ho
        omega
      have hb : lowVal kind ≤ p ∧ p ≤ hiVal kind ∧
          ((0 ≤ p ∧ p ≤ 10 ^ 10 ∧ (kind ≠ 0 ∨ p < 1000000)) ∨ (p < 0 ∧ -p ≤ 480000000 ∧ (kind ≠ 0 ∨ -p < 48000))) := by
        rcases hc with ⟨rfl, a, b⟩ | ⟨rfl, a, b⟩ | ⟨rfl, a, b⟩ | ⟨rfl, a, b⟩ | ⟨rfl, a, b⟩ | ⟨rfl, a, b⟩ | ⟨rfl, a, b⟩ |
          ⟨rfl, a, b⟩ | ⟨rfl, a, b⟩ | ⟨rfl, a, b⟩ | ⟨rfl, a, b⟩
        · refine ⟨a, b, ?_⟩
          rcases le_or_gt 0 p with h | h
          · exact Or.inl ⟨h, by linarith, Or.inr (by linarith)⟩
          · exact Or.inr ⟨h, by linarith, Or.inr (by linarith)⟩
        · exact ⟨a, b, Or.inl ⟨a, by linarith, Or.inl (by norm_num)⟩⟩
        · exact ⟨a, b, Or.inl ⟨a, by linarith, Or.inl (by norm_num)⟩⟩
        · have e4 : hiVal 3 = 10000000000 := rfl
          refine ⟨a, by rw [e4]; linarith, ?_⟩
          rcases le_or_gt 0 p with h | h
          · exact Or.inl ⟨h, b, Or.inl (by norm_num)⟩
          · exact Or.inr ⟨h, by linarith, Or.inl (by norm_num)⟩
        all_goals omega
      have := pack_big hR fuel kind p ip (by omega) hb.2.2 (by
        rw [← encode_plain hR (fuel + 14) kind p hp hk hb.1 hb.2.1 h0]; exact e1)
      omega
    · unfold tol
      rcases e3 with e3 | ⟨hk, hlt, rfl⟩ | ⟨rfl, hlt, rfl⟩
      · have := e3.1
        have hm : (7 : ℚ) / 10 ^ 12 ≤ (if (kind = 6 ∨ kind = 17) ∧ p < 10012 / 10000 then 12 / 10 ^ 4
            else if kind = 21 ∧ p < 10022 / 10 ^ 8 then 10022 / 10 ^ 8 else 7 / 10 ^ 12) := by
          split
          · norm_num
          · split <;> norm_num
        linarith
      · rw [if_pos (show (kind = 6 ∨ kind = 17) ∧ p < 10012 / 10000 from ⟨hk, hlt⟩)]
        have h1 : 1 ≤ p := by
          rcases hc with ⟨rfl, a, b⟩ | ⟨rfl, a, b⟩ | ⟨rfl, a, b⟩ | ⟨rfl, a, b⟩ | ⟨rfl, a, b⟩ | ⟨rfl, a, b⟩ | ⟨rfl, a, b⟩ |
            ⟨rfl, a, b⟩ | ⟨rfl, a, b⟩ | ⟨rfl, a, b⟩ | ⟨rfl, a, b⟩ <;> first | exact a | omega
        have hq : 0 ≤ |p| * (if 0 ≤ p ∧ kind ≠ 17 then 53 / 10 ^ 7 else 106 / 10 ^ 6) := by
          apply mul_nonneg (abs_nonneg p)
          split <;> norm_num
        have : |1 - p| ≤ 12 / 10 ^ 4 := by rw [abs_le]; constructor <;> linarith
        linarith
      · rw [if_neg (show ¬ ((21 = 6 ∨ 21 = 17) ∧ p < 10012 / 10000) by norm_num), if_pos (show 21 = 21 ∧ p < 10022 / 10 ^ 8 from ⟨rfl, hlt⟩)]
        have h1 : 0 ≤ p := by
          rcases hc with ⟨h, a, b⟩ | ⟨h, a, b⟩ | ⟨h, a, b⟩ | ⟨h, a, b⟩ | ⟨h, a, b⟩ | ⟨h, a, b⟩ | ⟨h, a, b⟩ |
            ⟨h, a, b⟩ | ⟨h, a, b⟩ | ⟨h, a, b⟩ | ⟨h, a, b⟩ <;> first | omega | exact a
        have hq : 0 ≤ |p| * (if 0 ≤ p ∧ 21 ≠ 17 then (53 : ℚ) / 10 ^ 7 else 106 / 10 ^ 6) := by
          apply mul_nonneg (abs_nonneg p)
          split <;> norm_num
        rw [zero_sub, abs_neg, abs_of_nonneg h1] at *
        linarith
  · obtain ⟨ip, e1, e2⟩ := C48_integers (R := R) (fuel + 14) n n0 n1
    refine ⟨ip, n, e1, ?_, e2, ?_⟩
    · by_contra hlt
      have ho := decode_old R ip (by omega)
      rw [e2] at ho
      simp at ho
    · rw [sub_self, abs_zero]
      unfold tol
      apply add_nonneg
      · apply mul_nonneg (abs_nonneg _)
        split <;> norm_num
      · split
        · norm_num
        · split <;> norm_num

/-! ### C60 -/

/-- `lo'` and `hi'` are the two values `lo` and `hi` of a kind as decoded, from the lower one in the atmosphere to the
higher one when larger values are known to be higher (kinds 0, 4, 21) or lower (kinds 1, 2, 7). -/
def Ordered (kind : Nat) (lo hi lo' hi' : ℚ) : Prop :=
  (kind = 0 ∨ kind = 4 ∨ kind = 21 → lo' ≤ hi' ∧ |lo' - min lo hi| ≤ max (tol kind lo) (tol kind hi) ∧
      |hi' - max lo hi| ≤ max (tol kind lo) (tol kind hi)) ∧
    (kind = 1 ∨ kind = 2 ∨ kind = 7 → hi' ≤ lo' ∧ |lo' - max lo hi| ≤ max (tol kind lo) (tol kind hi) ∧
      |hi' - min lo hi| ≤ max (tol kind lo) (tol kind hi)) ∧
    (kind = 3 ∨ kind = 5 ∨ kind = 6 → |lo' - lo| ≤ tol kind lo ∧ |hi' - hi| ≤ tol kind hi)

theorem min_near {a b a' b' e : ℚ} (ha : |a' - a| ≤ e) (hb : |b' - b| ≤ e) : |min a' b' - min a b| ≤ e := by
  rw [abs_le] at *
  rcases min_cases a' b' with ⟨h, _⟩ | ⟨h, _⟩ <;> rcases min_cases a b with ⟨h', _⟩ | ⟨h', _⟩ <;> rw [h, h'] <;>
    constructor <;> linarith

theorem max_near {a b a' b' e : ℚ} (ha : |a' - a| ≤ e) (hb : |b' - b| ≤ e) : |max a' b' - max a b| ≤ e := by
  rw [abs_le] at *
  rcases max_cases a' b' with ⟨h, _⟩ | ⟨h, _⟩ <;> rcases max_cases a b with ⟨h', _⟩ | ⟨h', _⟩ <;> rw [h, h'] <;>
    constructor <;> linarith

theorem level_cases (k : Nat) (h : isLevel k = true) : k ≤ 7 ∨ k = 21 := by
  unfold isLevel at h
  simp at h
  omega

theorem level_of (k : Nat) (h : k ≤ 7 ∨ k = 21) : isLevel k = true ∧ isInvalid k = false := by
  rcases (by omega : k = 0 ∨ k = 1 ∨ k = 2 ∨ k = 3 ∨ k = 4 ∨ k = 5 ∨ k = 6 ∨ k = 7 ∨ k = 21) with
    rfl | rfl | rfl | rfl | rfl | rfl | rfl | rfl | rfl <;> decide

/-- The kinds of values that can be coded are valid. -/
theorem value_kind (k : Nat) (p : ℚ) (h : Value k p) : isInvalid k = false ∧ (k : Int) ≠ -1 := by
  refine ⟨?_, by omega⟩
  rcases h with ⟨-, h, -⟩ | ⟨rfl, -⟩
  · rcases h with ⟨rfl, a, b⟩ | ⟨rfl, a, b⟩ | ⟨rfl, a, b⟩ | ⟨rfl, a, b⟩ | ⟨rfl, a, b⟩ | ⟨rfl, a, b⟩ | ⟨rfl, a, b⟩ |
      ⟨rfl, a, b⟩ | ⟨rfl, a, b⟩ | ⟨rfl, a, b⟩ | ⟨rfl, a, b⟩ <;> decide
  · decide

theorem encode_ok {R : Rounding} (fuel : Nat) (rp1 rp2 rp3 : FloatIp) (k1 : Nat) (c : ℚ × Int) (i j k : Int)
    (h1 : rp1.kind = k1) (hk : k1 ≤ 7 ∨ k1 = 21) (h2 : rp2.kind = 10) (h3 : third rp1 rp2 rp3 = some c)
    (e1 : encodeNew R fuel k1 (levels rp1).1 = some i) (e2 : encodeNew R fuel 10 (times rp2).1 = some j)
    (e3 : encodeNew R fuel c.2.toNat c.1 = some k) : encodeIp R fuel rp1 rp2 rp3 = some (0, i, j, k) := by
  obtain ⟨a, b⟩ := level_of k1 hk
  unfold encodeIp
  rw [h1, h2, a, b, h3, show isInvalid 10 = false by decide]
  simp only [Bool.or_self, Bool.not_true, bne_self_eq_false, Bool.false_eq_true, if_false]
  unfold codes
  simp only [Int.toNat_natCast]
  rw [e1, show (10 : Int).toNat = 10 from rfl, e2, e3]
  rfl

theorem decode_ok {R : Rounding} (junk : Junk) (ip1 ip2 ip3 : Int) (k1 k3 : Nat) (p1 p2 p3 : ℚ) (hk : k1 ≤ 7 ∨ k1 = 21)
    (b1 : 32768 ≤ ip1) (b2 : 32768 ≤ ip2) (b3 : 32768 ≤ ip3) (d1 : decode R ip1 = ((k1 : Int), p1))
    (d2 : decode R ip2 = (((10 : Nat) : Int), p2)) (d3 : decode R ip3 = ((k3 : Int), p3)) :
    decodeIp R junk ip1 ip2 ip3 = (if k1 ≤ 6 then 0 else 64, some (ranges k1 p1 10 p2 k3 p3 ⟨p3, p3, k3⟩)) := by
  have s2 : second R junk ip2 = some (0, 10, p2) := by
    unfold second
    rw [if_neg (by omega), d2]
    simp
  have s3 : thirdOf R junk ip3 = some (0, (k3 : Int), p3, ⟨p3, p3, k3⟩) := by
    unfold thirdOf
    rw [if_neg (by omega), d3, if_neg (by omega)]
  unfold decodeIp
  rw [if_neg (by omega), d1, s2, s3]
  simp only [(level_of k1 hk).1, Bool.not_true, Bool.false_eq_true, if_false]
  rw [if_neg (show ¬ ip1 < 32768 by omega)]
  by_cases h : k1 ≤ 6
  · rw [if_neg (show ¬ ((k1 : Int) > 6 ∨ (10 : Int) ≠ 10) by omega), if_pos h]
    rfl
  · rw [if_pos (show ((k1 : Int) > 6 ∨ (10 : Int) ≠ 10) by omega), if_neg h]
    rfl

/-- Levels in order, whatever the order they come in. -/
theorem ranges_levels (k : Nat) (hk : k ≤ 6) (lo hi p1 p2 p3 : ℚ) (rp3 : FloatIp)
    (h : (|p1 - lo| ≤ tol k lo ∧ |p3 - hi| ≤ tol k hi) ∨
      ((k = 0 ∨ k = 4 ∨ k = 1 ∨ k = 2) ∧ |p1 - hi| ≤ tol k hi ∧ |p3 - lo| ≤ tol k lo)) :
    ∃ lo' hi', ranges k p1 10 p2 k p3 rp3 = (⟨lo', hi', k⟩, ⟨p2, p2, 10⟩, noThird) ∧ Ordered k lo hi lo' hi' := by
  have hm : |min p1 p3 - min lo hi| ≤ max (tol k lo) (tol k hi) := by
    rcases h with ⟨a, b⟩ | ⟨-, a, b⟩
    · exact min_near (le_trans a (le_max_left _ _)) (le_trans b (le_max_right _ _))
    · rw [min_comm lo hi]
      exact min_near (le_trans a (le_max_right _ _)) (le_trans b (le_max_left _ _))
  have hM : |max p1 p3 - max lo hi| ≤ max (tol k lo) (tol k hi) := by
    rcases h with ⟨a, b⟩ | ⟨-, a, b⟩
    · exact max_near (le_trans a (le_max_left _ _)) (le_trans b (le_max_right _ _))
    · rw [max_comm lo hi]
      exact max_near (le_trans a (le_max_right _ _)) (le_trans b (le_max_left _ _))
  unfold ranges
  rw [if_neg (by omega), if_pos ⟨by omega, rfl⟩]
  rcases (by omega : (k = 0 ∨ k = 4) ∨ (k = 1 ∨ k = 2) ∨ (k = 3 ∨ k = 5 ∨ k = 6)) with hc | hc | hc
  · have e1 : ascending k = true := by rcases hc with rfl | rfl <;> decide
    have e2 : descending k = false := by rcases hc with rfl | rfl <;> decide
    rw [e1, e2]
    by_cases hlt : p3 < p1
    · rw [if_pos (Or.inl ⟨hlt, rfl⟩)]
      rw [min_eq_right (le_of_lt hlt)] at hm
      rw [max_eq_left (le_of_lt hlt)] at hM
      exact ⟨p3, p1, rfl, fun _ => ⟨le_of_lt hlt, hm, hM⟩, fun h => by omega, fun h => by omega⟩
    · rw [if_neg (by simp [hlt])]
      rw [not_lt] at hlt
      rw [min_eq_left hlt] at hm
      rw [max_eq_right hlt] at hM
      exact ⟨p1, p3, rfl, fun _ => ⟨hlt, hm, hM⟩, fun h => by omega, fun h => by omega⟩
  · have e1 : ascending k = false := by rcases hc with rfl | rfl <;> decide
    have e2 : descending k = true := by rcases hc with rfl | rfl <;> decide
    rw [e1, e2]
    by_cases hlt : p3 > p1
    · rw [if_pos (Or.inr ⟨hlt, rfl⟩)]
      rw [min_eq_left (le_of_lt hlt)] at hm
      rw [max_eq_right (le_of_lt hlt)] at hM
      exact ⟨p3, p1, rfl, fun h => by omega, fun _ => ⟨le_of_lt hlt, hM, hm⟩, fun h => by omega⟩
    · rw [if_neg (by simp; exact le_of_not_gt hlt)]
      rw [gt_iff_lt, not_lt] at hlt
      rw [min_eq_right hlt] at hm
      rw [max_eq_left hlt] at hM
      exact ⟨p1, p3, rfl, fun h => by omega, fun _ => ⟨hlt, hM, hm⟩, fun h => by omega⟩
  · have e1 : ascending k = false := by rcases hc with rfl | rfl | rfl <;> decide
    have e2 : descending k = false := by rcases hc with rfl | rfl | rfl <;> decide
    rw [e1, e2, if_neg (by simp)]
    refine ⟨p1, p3, rfl, fun h => by omega, fun h => by omega, fun _ => ?_⟩
    rcases h with h | h
    · exact h
    · omega

/-- **C60** (levels).  A range of levels and a time, whatever else is given, are coded and decoded as the same range, from
the lower level to the higher one, and the same time, without any flag, whatever is in memory.  Missing: kinds 7 and 21,
see `C60_depth_witness`; zero pressure, see `C60_top_witness`; the values excepted in C48. -/
theorem C60_levels_partial {R : Rounding} (hR : Good R) (fuel k1 : Nat) (lo hi t : ℚ) (rp3 : FloatIp) (hk : k1 ≤ 6)
    (hne : hi ≠ lo) (h1 : Value k1 lo) (h2 : Value k1 hi) (h3 : Value 10 t) :
    ∃ ip1 ip2 ip3 lo' hi' t', encodeIp R (fuel + 14) ⟨lo, hi, k1⟩ ⟨t, t, 10⟩ rp3 = some (0, ip1, ip2, ip3) ∧
      (∀ junk, decodeIp R junk ip1 ip2 ip3 = (0, some (⟨lo', hi', k1⟩, ⟨t', t', 10⟩, ⟨0, 0, -1⟩))) ∧
      Ordered k1 lo hi lo' hi' ∧ |t' - t| ≤ tol 10 t := by
  obtain ⟨i, a, e1, b1, d1, c1⟩ := trip hR fuel k1 lo h1
  obtain ⟨j, b, e2, b2, d2, c2⟩ := trip hR fuel k1 hi h2
  obtain ⟨l, c, e3, b3, d3, c3⟩ := trip hR fuel 10 t h3
  have ht : times ⟨t, t, 10⟩ = (t, t) := by unfold times; rw [if_neg (by simp)]
  have h3' : third ⟨lo, hi, k1⟩ ⟨t, t, 10⟩ rp3 = some ((levels ⟨lo, hi, k1⟩).2, (k1 : Int)) := by
    unfold third
    rw [if_pos hne, if_neg (by simp)]
  by_cases hs : (hi < lo ∧ ascending k1 = true) ∨ (hi > lo ∧ descending k1 = true)
  · have hl : levels ⟨lo, hi, k1⟩ = (hi, lo) := by unfold levels; rw [if_pos hs]
    have hkk : k1 = 0 ∨ k1 = 4 ∨ k1 = 1 ∨ k1 = 2 := by
      unfold ascending descending at hs
      simp at hs
      omega
    obtain ⟨lo', hi', f1, f2⟩ := ranges_levels k1 hk lo hi b c a ⟨a, a, k1⟩ (Or.inr ⟨hkk, c2, c1⟩)
    refine ⟨j, l, i, lo', hi', c, ?_, ?_, f2, c3⟩
    · refine encode_ok (fuel + 14) _ _ _ k1 _ j l i rfl (by omega) rfl h3' ?_ ?_ ?_
      · rw [hl]; exact e2
      · rw [ht]; exact e3
      · rw [hl]; exact e1
    · intro junk
      rw [decode_ok junk j l i k1 k1 b c a (by omega) b2 b3 b1 d2 d3 d1, if_pos hk, f1]
      rfl
  · have hl : levels ⟨lo, hi, k1⟩ = (lo, hi) := by unfold levels; rw [if_neg hs]
    obtain ⟨lo', hi', f1, f2⟩ := ranges_levels k1 hk lo hi a c b ⟨b, b, k1⟩ (Or.inl ⟨c1, c2⟩)
    refine ⟨i, l, j, lo', hi', c, ?_, ?_, f2, c3⟩
    · refine encode_ok (fuel + 14) _ _ _ k1 _ i l j rfl (by omega) rfl h3' ?_ ?_ ?_
      · rw [hl]; exact e1
      · rw [ht]; exact e3
      · rw [hl]; exact e2
    · intro junk
      rw [decode_ok junk i l j k1 k1 a c b (by omega) b1 b3 b2 d1 d3 d2, if_pos hk, f1]
      rfl

theorem ranges_times (k : Nat) (hk : k ≤ 7 ∨ k = 21) (lo hi p1 p2 p3 : ℚ) (rp3 : FloatIp)
    (h : (|p2 - lo| ≤ tol 10 lo ∧ |p3 - hi| ≤ tol 10 hi) ∨ (|p2 - hi| ≤ tol 10 hi ∧ |p3 - lo| ≤ tol 10 lo)) :
    ∃ lo' hi', ranges k p1 10 p2 10 p3 rp3 = (⟨p1, p1, k⟩, ⟨lo', hi', 10⟩, noThird) ∧ lo' ≤ hi' ∧
      |lo' - min lo hi| ≤ max (tol 10 lo) (tol 10 hi) ∧ |hi' - max lo hi| ≤ max (tol 10 lo) (tol 10 hi) := by
  have hm : |min p2 p3 - min lo hi| ≤ max (tol 10 lo) (tol 10 hi) := by
    rcases h with ⟨a, b⟩ | ⟨a, b⟩
    · exact min_near (le_trans a (le_max_left _ _)) (le_trans b (le_max_right _ _))
    · rw [min_comm lo hi]
      exact min_near (le_trans a (le_max_right _ _)) (le_trans b (le_max_left _ _))
  have hM : |max p2 p3 - max lo hi| ≤ max (tol 10 lo) (tol 10 hi) := by
    rcases h with ⟨a, b⟩ | ⟨a, b⟩
    · exact max_near (le_trans a (le_max_left _ _)) (le_trans b (le_max_right _ _))
    · rw [max_comm lo hi]
      exact max_near (le_trans a (le_max_right _ _)) (le_trans b (le_max_left _ _))
  unfold ranges
  rw [if_pos ⟨rfl, rfl⟩]
  by_cases hlt : p3 < p2
  · rw [if_pos hlt]
    rw [min_eq_right (le_of_lt hlt)] at hm
    rw [max_eq_left (le_of_lt hlt)] at hM
    exact ⟨p3, p2, rfl, le_of_lt hlt, hm, hM⟩
  · rw [if_neg hlt]
    rw [not_lt] at hlt
    rw [min_eq_left hlt] at hm
    rw [max_eq_right hlt] at hM
    exact ⟨p2, p3, rfl, hlt, hm, hM⟩

/-- **C60** (times).  A level and a range of times are coded and decoded as the same level and the same range, from the
earlier time to the later one.  Missing: as in `C60_levels_partial`. -/
theorem C60_times_partial {R : Rounding} (hR : Good R) (fuel k1 : Nat) (p lo hi : ℚ) (rp3 : FloatIp) (hk : k1 ≤ 6)
    (hne : hi ≠ lo) (h1 : Value k1 p) (h2 : Value 10 lo) (h3 : Value 10 hi) :
    ∃ ip1 ip2 ip3 p' lo' hi', encodeIp R (fuel + 14) ⟨p, p, k1⟩ ⟨lo, hi, 10⟩ rp3 = some (0, ip1, ip2, ip3) ∧
      (∀ junk, decodeIp R junk ip1 ip2 ip3 = (0, some (⟨p', p', k1⟩, ⟨lo', hi', 10⟩, ⟨0, 0, -1⟩))) ∧
      |p' - p| ≤ tol k1 p ∧ lo' ≤ hi' ∧ |lo' - min lo hi| ≤ max (tol 10 lo) (tol 10 hi) ∧
      |hi' - max lo hi| ≤ max (tol 10 lo) (tol 10 hi) := by
  obtain ⟨i, a, e1, b1, d1, c1⟩ := trip hR fuel k1 p h1
  obtain ⟨j, b, e2, b2, d2, c2⟩ := trip hR fuel 10 lo h2
  obtain ⟨l, c, e3, b3, d3, c3⟩ := trip hR fuel 10 hi h3
  have hl : levels ⟨p, p, k1⟩ = (p, p) := by unfold levels; split <;> rfl
  have h3' : third ⟨p, p, k1⟩ ⟨lo, hi, 10⟩ rp3 = some ((times ⟨lo, hi, 10⟩).2, 10) := by
    unfold third
    rw [if_neg (by simp), if_pos hne]
  by_cases hs : hi > lo
  · have ht : times ⟨lo, hi, 10⟩ = (hi, lo) := by unfold times; rw [if_pos hs]
    obtain ⟨lo', hi', f1, f2⟩ := ranges_times k1 (by omega) lo hi a c b ⟨b, b, 10⟩ (Or.inr ⟨c3, c2⟩)
    refine ⟨i, l, j, a, lo', hi', ?_, ?_, c1, f2⟩
    · refine encode_ok (fuel + 14) _ _ _ k1 _ i l j rfl (by omega) rfl h3' ?_ ?_ ?_
      · rw [hl]; exact e1
      · rw [ht]; exact e3
      · rw [ht]; exact e2
    · intro junk
      rw [decode_ok junk i l j k1 10 a c b (by omega) b1 b3 b2 d1 d3 d2, if_pos hk]
      exact congrArg (fun x => (0, some x)) f1
  · have ht : times ⟨lo, hi, 10⟩ = (lo, hi) := by unfold times; rw [if_neg hs]
    obtain ⟨lo', hi', f1, f2⟩ := ranges_times k1 (by omega) lo hi a b c ⟨c, c, 10⟩ (Or.inl ⟨c2, c3⟩)
    refine ⟨i, j, l, a, lo', hi', ?_, ?_, c1, f2⟩
    · refine encode_ok (fuel + 14) _ _ _ k1 _ i j l rfl (by omega) rfl h3' ?_ ?_ ?_
      · rw [hl]; exact e1
      · rw [ht]; exact e2
      · rw [ht]; exact e3
    · intro junk
      rw [decode_ok junk i j l k1 10 a b c (by omega) b1 b2 b3 d1 d2 d3, if_pos hk]
      exact congrArg (fun x => (0, some x)) f1

/-- **C60** (no range).  A level, a time and a third value that is neither of the kind of the level nor a time come back.
Missing: as in `C60_levels_partial`. -/
theorem C60_single_partial {R : Rounding} (hR : Good R) (fuel k1 k3 : Nat) (p t q q2 : ℚ) (hk : k1 ≤ 6)
    (hne : k3 ≠ k1) (ht3 : k3 ≠ 10) (h1 : Value k1 p) (h2 : Value 10 t) (h3 : Value k3 q) :
    ∃ ip1 ip2 ip3 p' t' q', encodeIp R (fuel + 14) ⟨p, p, k1⟩ ⟨t, t, 10⟩ ⟨q, q2, k3⟩ = some (0, ip1, ip2, ip3) ∧
      (∀ junk, decodeIp R junk ip1 ip2 ip3 = (0, some (⟨p', p', k1⟩, ⟨t', t', 10⟩, ⟨q', q', k3⟩))) ∧
      |p' - p| ≤ tol k1 p ∧ |t' - t| ≤ tol 10 t ∧ |q' - q| ≤ tol k3 q := by
  obtain ⟨i, a, e1, b1, d1, c1⟩ := trip hR fuel k1 p h1
  obtain ⟨j, b, e2, b2, d2, c2⟩ := trip hR fuel 10 t h2
  obtain ⟨l, c, e3, b3, d3, c3⟩ := trip hR fuel k3 q h3
  have hl : levels ⟨p, p, k1⟩ = (p, p) := by unfold levels; split <;> rfl
  have ht : times ⟨t, t, 10⟩ = (t, t) := by unfold times; rw [if_neg (by simp)]
  have h3' : third ⟨p, p, k1⟩ ⟨t, t, 10⟩ ⟨q, q2, k3⟩ = some (q, (k3 : Int)) := by
    unfold third
    rw [if_neg (by simp), if_neg (by simp), (value_kind k3 q h3).1]
    rfl
  refine ⟨i, j, l, a, b, c, ?_, ?_, c1, c2, c3⟩
  · refine encode_ok (fuel + 14) _ _ _ k1 _ i j l rfl (by omega) rfl h3' ?_ ?_ e3
    · rw [hl]; exact e1
    · rw [ht]; exact e2
  · intro junk
    rw [decode_ok junk i j l k1 k3 a b c (by omega) b1 b2 b3 d1 d2 d3, if_pos hk]
    unfold ranges
    rw [if_neg (by omega), if_neg (by omega)]

/-- A third value of the kind of the level is taken for the end of a range of levels. -/
theorem C60_third_level {R : Rounding} (hR : Good R) (fuel k1 : Nat) (p t q q2 : ℚ) (hk : k1 ≤ 6)
    (h1 : Value k1 p) (h2 : Value 10 t) (h3 : Value k1 q) :
    ∃ ip1 ip2 ip3 lo' hi' t', encodeIp R (fuel + 14) ⟨p, p, k1⟩ ⟨t, t, 10⟩ ⟨q, q2, k1⟩ = some (0, ip1, ip2, ip3) ∧
      (∀ junk, decodeIp R junk ip1 ip2 ip3 = (0, some (⟨lo', hi', k1⟩, ⟨t', t', 10⟩, ⟨0, 0, -1⟩))) ∧
      Ordered k1 p q lo' hi' := by
  obtain ⟨i, a, e1, b1, d1, c1⟩ := trip hR fuel k1 p h1
  obtain ⟨j, b, e2, b2, d2, c2⟩ := trip hR fuel 10 t h2
  obtain ⟨l, c, e3, b3, d3, c3⟩ := trip hR fuel k1 q h3
  have hl : levels ⟨p, p, k1⟩ = (p, p) := by unfold levels; split <;> rfl
  have ht : times ⟨t, t, 10⟩ = (t, t) := by unfold times; rw [if_neg (by simp)]
  have h3' : third ⟨p, p, k1⟩ ⟨t, t, 10⟩ ⟨q, q2, k1⟩ = some (q, (k1 : Int)) := by
    unfold third
    rw [if_neg (by simp), if_neg (by simp), (value_kind k1 q h3).1]
    rfl
  obtain ⟨lo', hi', f1, f2⟩ := ranges_levels k1 hk p q a b c ⟨c, c, k1⟩ (Or.inl ⟨c1, c3⟩)
  refine ⟨i, j, l, lo', hi', b, ?_, ?_, f2⟩
  · refine encode_ok (fuel + 14) _ _ _ k1 _ i j l rfl (by omega) rfl h3' ?_ ?_ e3
    · rw [hl]; exact e1
    · rw [ht]; exact e2
  · intro junk
    rw [decode_ok junk i j l k1 k1 a b c (by omega) b1 b2 b3 d1 d2 d3, if_pos hk, f1]
    rfl

/-- Depths (kind 7) and pressure-meters (kind 21) are levels that are coded without error, but their codes are decoded
with the flag of an error; a range comes back as a single level, its second level as a third value. -/
theorem C60_depth_witness {R : Rounding} (hR : Good R) (fuel k1 : Nat) (lo hi t : ℚ) (rp3 : FloatIp) (hk : k1 = 7 ∨ k1 = 21)
    (hne : hi ≠ lo) (h1 : Value k1 lo) (h2 : Value k1 hi) (h3 : Value 10 t) :
    ∃ ip1 ip2 ip3 p' t' q', encodeIp R (fuel + 14) ⟨lo, hi, k1⟩ ⟨t, t, 10⟩ rp3 = some (0, ip1, ip2, ip3) ∧
      ∀ junk, decodeIp R junk ip1 ip2 ip3 = (64, some (⟨p', p', k1⟩, ⟨t', t', 10⟩, ⟨q', q', k1⟩)) := by
  have ht : times ⟨t, t, 10⟩ = (t, t) := by unfold times; rw [if_neg (by simp)]
  have h3' : third ⟨lo, hi, k1⟩ ⟨t, t, 10⟩ rp3 = some ((levels ⟨lo, hi, k1⟩).2, (k1 : Int)) := by
    unfold third
    rw [if_pos hne, if_neg (by simp)]
  have hv : Value k1 (levels ⟨lo, hi, k1⟩).1 ∧ Value k1 (levels ⟨lo, hi, k1⟩).2 := by
    unfold levels
    split
    · exact ⟨h2, h1⟩
    · exact ⟨h1, h2⟩
  obtain ⟨i, a, e1, b1, d1, c1⟩ := trip hR fuel k1 _ hv.1
  obtain ⟨j, b, e2, b2, d2, c2⟩ := trip hR fuel k1 _ hv.2
  obtain ⟨l, c, e3, b3, d3, c3⟩ := trip hR fuel 10 t h3
  refine ⟨i, l, j, a, c, b, ?_, ?_⟩
  · refine encode_ok (fuel + 14) _ _ _ k1 _ i l j rfl (by omega) rfl h3' e1 ?_ e2
    rw [ht]; exact e3
  · intro junk
    rw [decode_ok junk i l j k1 k1 a c b (by omega) b1 b3 b2 d1 d3 d2, if_neg (by omega)]
    unfold ranges
    rw [if_neg (by omega), if_neg (by omega)]

theorem encode_zero (R : Rounding) (fuel : Nat) : encodeNew R fuel 2 0 = some 0 := by
  unfold encodeNew
  rw [show invalidKind 2 = false by decide]
  simp

/-- A range of pressures up to the top of the atmosphere: the second level is lost; what comes back depends on what is in
memory and may be a range of times up to a value found there. -/
theorem C60_top_witness {R : Rounding} (hR : Good R) (fuel : Nat) (p t : ℚ) (rp3 : FloatIp) (hp : 0 < p) (h1 : Value 2 p)
    (h3 : Value 10 t) :
    ∃ ip1 ip2 p' t', encodeIp R (fuel + 14) ⟨p, 0, 2⟩ ⟨t, t, 10⟩ rp3 = some (0, ip1, ip2, 0) ∧
      (∀ x k2, decodeIp R ⟨k2, 0, x⟩ ip1 ip2 0 = (8, some (⟨p', p', 2⟩, ⟨t', t', 10⟩, ⟨0, 0, 3⟩))) ∧
      ∀ x k2, t' ≤ x → decodeIp R ⟨k2, 10, x⟩ ip1 ip2 0 = (8, some (⟨p', p', 2⟩, ⟨t', x, 10⟩, ⟨0, 0, -1⟩)) := by
  obtain ⟨i, a, e1, b1, d1, c1⟩ := trip hR fuel 2 p h1
  obtain ⟨l, c, e3, b3, d3, c3⟩ := trip hR fuel 10 t h3
  have ht : times ⟨t, t, 10⟩ = (t, t) := by unfold times; rw [if_neg (by simp)]
  have hl : levels ⟨p, 0, 2⟩ = (p, 0) := by
    unfold levels
    rw [if_neg]
    rintro (⟨-, h⟩ | ⟨h, -⟩)
    · exact absurd (show ascending 2 = true from h) (by decide)
    · simp only at h; linarith
  have h3' : third ⟨p, 0, 2⟩ ⟨t, t, 10⟩ rp3 = some (0, 2) := by
    unfold third
    rw [if_pos (by simp only; exact fun h => by linarith), if_neg (by simp), hl]
  have hd : ∀ junk : Junk, decodeIp R junk i l 0 = (8, some (ranges 2 a 10 c junk.kind3 junk.p3 ⟨0, 0, 3⟩)) := by
    intro junk
    have s2 : second R junk l = some (0, 10, c) := by
      unfold second
      rw [if_neg (by omega), d3]
      simp
    have s3 : thirdOf R junk 0 = some (8, junk.kind3, junk.p3, ⟨0, 0, 3⟩) := by
      unfold thirdOf
      rw [if_pos (by omega)]
      simp
    unfold decodeIp
    rw [if_neg (by omega), d1, s2, s3]
    simp only [(level_of 2 (by omega)).1, Bool.not_true, Bool.false_eq_true, if_false]
    rw [if_neg (show ¬ i < 32768 by omega), if_neg (by norm_num)]
    rfl
  refine ⟨i, l, a, c, ?_, ?_, ?_⟩
  · refine encode_ok (fuel + 14) _ _ _ 2 _ i l 0 rfl (by omega) rfl h3' ?_ ?_ (encode_zero R _)
    · rw [hl]; exact e1
    · rw [ht]; exact e3
  · intro x k2
    rw [hd]
    unfold ranges
    rw [if_neg (by norm_num), if_neg (by norm_num)]
  · intro x k2 hx
    rw [hd]
    unfold ranges
    rw [if_pos ⟨rfl, rfl⟩, if_neg (by simp only; linarith)]
    rfl

/-- For a time in the old style the status depends on what is in memory. -/
theorem C60_old_witness (R : Rounding) :
    (decodeIp R ⟨10, 3, 0⟩ 500 24 0).1 = 10 ∧ (decodeIp R ⟨0, 3, 0⟩ 500 24 0).1 = 74 := by
  have hd : (decode R 500).1 = 2 := by
    unfold decode
    norm_num
  constructor <;>
  · unfold decodeIp second thirdOf
    rw [hd]
    norm_num [isLevel]
    try decide

/-- A value out of range is coded as a negative number and still reported as coded. -/
theorem C60_range_witness {R : Rounding} (hR : Good R) (fuel : Nat) (p t : ℚ) (hp : 1100 < p) (h2 : Value 10 t) :
    ∃ ip2 ip3, encodeIp R (fuel + 14) ⟨p, p, 2⟩ ⟨t, t, 10⟩ ⟨0, 0, 3⟩ = some (0, -999999, ip2, ip3) ∧
      ∀ junk, decodeIp R junk (-999999) ip2 ip3 = (64, none) := by
  obtain ⟨l, c, e3, b3, d3, c3⟩ := trip hR fuel 10 t h2
  obtain ⟨m, d, e4, b4, d4, c4⟩ := trip hR fuel 3 0 (Or.inl ⟨⟨0, 0, by norm_num, by norm_num⟩, by
    unfold Codable; norm_num, by norm_num, by norm_num⟩)
  have ht : times ⟨t, t, 10⟩ = (t, t) := by unfold times; rw [if_neg (by simp)]
  have hl : levels ⟨p, p, 2⟩ = (p, p) := by unfold levels; split <;> rfl
  have h3' : third ⟨p, p, 2⟩ ⟨t, t, 10⟩ ⟨0, 0, 3⟩ = some (0, 3) := by
    unfold third
    rw [if_neg (by simp), if_neg (by simp)]
    rfl
  have e1 : encodeNew R (fuel + 14) 2 p = some (-999999) := by
    unfold encodeNew
    have f1 : hiVal 2 = 1100 := rfl
    rw [show invalidKind 2 = false by decide, f1]
    simp only [Bool.false_eq_true, if_false]
    rw [if_neg (by intro h; linarith [h.2]), if_neg (by norm_num), if_pos (Or.inr hp)]
  refine ⟨l, m, ?_, ?_⟩
  · refine encode_ok (fuel + 14) _ _ _ 2 _ _ l m rfl (by omega) rfl h3' ?_ ?_ e4
    · rw [hl]; exact e1
    · rw [ht]; exact e3
  · intro junk
    unfold decodeIp
    rw [if_pos (Or.inl (by norm_num))]

/-- **C60** (any codes).  Whatever the codes and whatever is in memory, a status without the flag of an error comes with a
level of kinds 0 to 6, or a range from the lower level to the higher one, and with a time, or a range from the earlier time
to the later one. -/
theorem C60_sound (R : Rounding) (junk : Junk) (ip1 ip2 ip3 : Int) (h : (decodeIp R junk ip1 ip2 ip3).1 &&& 64 = 0) :
    ∃ rp1 rp2 rp3, (decodeIp R junk ip1 ip2 ip3).2 = some (rp1, rp2, rp3) ∧ 0 ≤ rp1.kind ∧ rp1.kind ≤ 6 ∧ rp2.kind = 10 ∧
      rp2.lo ≤ rp2.hi ∧ (rp1.kind = 0 ∨ rp1.kind = 4 → rp1.lo ≤ rp1.hi) ∧ (rp1.kind = 1 ∨ rp1.kind = 2 → rp1.hi ≤ rp1.lo) := by
  unfold decodeIp at h ⊢
  by_cases h0 : ip1 < 0 ∨ ip2 < 0 ∨ ip3 < 0
  · rw [if_pos h0] at h
    exact absurd h (by decide)
  rw [if_neg h0] at h ⊢
  by_cases hl : isLevel (decode R ip1).1 = true
  swap
  · rw [if_pos (by simpa using hl)] at h
    exact absurd h (by decide)
  rw [if_neg (by simpa using hl)] at h ⊢
  obtain ⟨s1, hs1⟩ : ∃ s, s = if ip1 < 32768 then 2 else 0 := ⟨_, rfl⟩
  have hs1' : s1 = 2 ∨ s1 = 0 := by rw [hs1]; split <;> simp
  simp only [← hs1] at h ⊢
  obtain ⟨x, hx⟩ : ∃ x, x = second R junk ip2 := ⟨_, rfl⟩
  rw [← hx] at h ⊢
  rcases x with _ | ⟨s2, kind2, p2⟩
  · exfalso
    dsimp only at h
    rcases hs1' with rfl | rfl <;> exact absurd h (by decide)
  have hs2 : s2 = 2 ∨ s2 = 0 := by
    unfold second at hx
    split at hx
    · left; simp only [Option.some.injEq, Prod.mk.injEq] at hx; exact hx.1
    · split at hx
      · exact absurd hx (by simp)
      · right; simp only [Option.some.injEq, Prod.mk.injEq] at hx; exact hx.1
  simp only at h ⊢
  obtain ⟨y, hy⟩ : ∃ x, x = thirdOf R junk ip3 := ⟨_, rfl⟩
  rw [← hy] at h ⊢
  rcases y with _ | ⟨s3, kind3, p3, rp3⟩
  · exfalso
    dsimp only at h
    rcases hs1' with rfl | rfl <;> rcases hs2 with rfl | rfl <;> exact absurd h (by decide)
  have hs3 : s3 = 8 ∨ s3 = 0 := by
    unfold thirdOf at hy
    split at hy
    · left; simp only [Option.some.injEq, Prod.mk.injEq] at hy; exact hy.1
    · split at hy
      · exact absurd hy (by simp)
      · right; simp only [Option.some.injEq, Prod.mk.injEq] at hy; exact hy.1
  simp only at h ⊢
  by_cases hc : (decode R ip1).1 > 6 ∨ kind2 ≠ 10
  · exfalso
    rw [if_pos hc] at h
    rcases hs1' with rfl | rfl <;> rcases hs2 with rfl | rfl <;> rcases hs3 with rfl | rfl <;> exact absurd h (by decide)
  have hk0 : 0 ≤ (decode R ip1).1 ∧ (decode R ip1).1 ≤ 6 := by
    unfold isLevel at hl
    simp at hl
    omega
  generalize (decode R ip1).1 = kind1 at *
  generalize (decode R ip1).2 = p1 at *
  unfold ranges
  split
  · refine ⟨_, _, _, rfl, hk0.1, hk0.2, ?_, ?_, fun _ => le_refl _, fun _ => le_refl _⟩
    · split <;> rfl
    · split
      · rename_i hlt; exact le_of_lt hlt
      · rename_i hlt; exact not_lt.1 hlt
  · split
    · rename_i hke
      refine ⟨_, _, _, rfl, ?_, ?_, rfl, le_refl _, ?_, ?_⟩
      · split <;> exact hk0.1
      · split <;> exact hk0.2
      · intro hk
        have hk' : kind1 = 0 ∨ kind1 = 4 := by
          revert hk
          split <;> exact id
        have ha : ascending kind3 = true := by rw [← hke.2]; rcases hk' with rfl | rfl <;> decide
        have hd : descending kind3 = false := by rw [← hke.2]; rcases hk' with rfl | rfl <;> decide
        rw [ha, hd]
        by_cases hlt : p3 < p1
        · rw [if_pos (Or.inl ⟨hlt, rfl⟩)]; exact le_of_lt hlt
        · rw [if_neg (by simp [hlt])]; exact not_lt.1 hlt
      · intro hk
        have hk' : kind1 = 1 ∨ kind1 = 2 := by
          revert hk
          split <;> exact id
        have ha : ascending kind3 = false := by rw [← hke.2]; rcases hk' with rfl | rfl <;> decide
        have hd : descending kind3 = true := by rw [← hke.2]; rcases hk' with rfl | rfl <;> decide
        rw [ha, hd]
        by_cases hlt : p3 > p1
        · rw [if_pos (Or.inr ⟨hlt, rfl⟩)]; exact le_of_lt hlt
        · rw [if_neg (by simp; exact le_of_not_gt hlt)]; exact le_of_not_gt hlt
    · exact ⟨_, _, _, rfl, hk0.1, hk0.2, rfl, le_refl _, fun _ => le_refl _, fun _ => le_refl _⟩

/-! ### C61 -/

/-- Levels put in order. -/
theorem ordered_of (k : Nat) (hk : k ≤ 7 ∨ k = 21) (lo hi p1 p3 : ℚ)
    (h : (|p1 - lo| ≤ tol k lo ∧ |p3 - hi| ≤ tol k hi) ∨
      ((ascending k = true ∨ descending k = true) ∧ |p1 - hi| ≤ tol k hi ∧ |p3 - lo| ≤ tol k lo)) :
    if (ascending k = true ∧ p1 > p3) ∨ (descending k = true ∧ p1 < p3) then Ordered k lo hi p3 p1 else Ordered k lo hi p1 p3 := by
  have hm : |min p1 p3 - min lo hi| ≤ max (tol k lo) (tol k hi) := by
    rcases h with ⟨a, b⟩ | ⟨-, a, b⟩
    · exact min_near (le_trans a (le_max_left _ _)) (le_trans b (le_max_right _ _))
    · rw [min_comm lo hi]
      exact min_near (le_trans a (le_max_right _ _)) (le_trans b (le_max_left _ _))
  have hM : |max p1 p3 - max lo hi| ≤ max (tol k lo) (tol k hi) := by
    rcases h with ⟨a, b⟩ | ⟨-, a, b⟩
    · exact max_near (le_trans a (le_max_left _ _)) (le_trans b (le_max_right _ _))
    · rw [max_comm lo hi]
      exact max_near (le_trans a (le_max_right _ _)) (le_trans b (le_max_left _ _))
  rcases (by omega : (k = 0 ∨ k = 4 ∨ k = 21) ∨ (k = 1 ∨ k = 2 ∨ k = 7) ∨ (k = 3 ∨ k = 5 ∨ k = 6)) with hc | hc | hc
  · have e1 : ascending k = true := by rcases hc with rfl | rfl | rfl <;> decide
    have e2 : descending k = false := by rcases hc with rfl | rfl | rfl <;> decide
    rw [e1, e2]
    by_cases hlt : p1 > p3
    · rw [if_pos (Or.inl ⟨rfl, hlt⟩)]
      rw [min_eq_right (le_of_lt hlt)] at hm
      rw [max_eq_left (le_of_lt hlt)] at hM
      exact ⟨fun _ => ⟨le_of_lt hlt, hm, hM⟩, fun h => by omega, fun h => by omega⟩
    · rw [if_neg (by simp; exact le_of_not_gt hlt)]
      rw [gt_iff_lt, not_lt] at hlt
      rw [min_eq_left hlt] at hm
      rw [max_eq_right hlt] at hM
      exact ⟨fun _ => ⟨hlt, hm, hM⟩, fun h => by omega, fun h => by omega⟩
  · have e1 : ascending k = false := by rcases hc with rfl | rfl | rfl <;> decide
    have e2 : descending k = true := by rcases hc with rfl | rfl | rfl <;> decide
    rw [e1, e2]
    by_cases hlt : p1 < p3
    · rw [if_pos (Or.inr ⟨rfl, hlt⟩)]
      rw [min_eq_left (le_of_lt hlt)] at hm
      rw [max_eq_right (le_of_lt hlt)] at hM
      exact ⟨fun h => by omega, fun _ => ⟨le_of_lt hlt, hM, hm⟩, fun h => by omega⟩
    · rw [if_neg (by simp; exact not_lt.1 hlt)]
      rw [not_lt] at hlt
      rw [min_eq_right hlt] at hm
      rw [max_eq_left hlt] at hM
      exact ⟨fun h => by omega, fun _ => ⟨hlt, hM, hm⟩, fun h => by omega⟩
  · have e1 : ascending k = false := by rcases hc with rfl | rfl | rfl <;> decide
    have e2 : descending k = false := by rcases hc with rfl | rfl | rfl <;> decide
    rw [e1, e2] at h ⊢
    rw [if_neg (by simp)]
    refine ⟨fun h => by omega, fun h => by omega, fun _ => ?_⟩
    rcases h with h | h
    · exact h
    · simp at h

theorem encodePk_ok {R : Rounding} (fuel k1 k2 k3 : Nat) (p1 p2 p3 : ℚ) (i j k : Int) (h1 : k1 ≤ 7 ∨ k1 = 21)
    (h2 : k2 ≤ 7 ∨ k2 = 21 ∨ k2 = 10) (h3 : isInvalid k3 = false) (e1 : encodeNew R fuel k1 p1 = some i)
    (e2 : encodeNew R fuel k2 p2 = some j) (e3 : encodeNew R fuel k3 p3 = some k) :
    encodePk R fuel p1 k1 p2 k2 p3 k3 = some (if k2 = 10 then 0 else 32, arrange p1 p2 p3 k1 k2 k3 i j k) := by
  unfold encodePk
  have hc : codes R fuel (p1, (k1 : Int)) (p2, (k2 : Int)) (p3, (k3 : Int)) = some (i, j, k) := by
    unfold codes
    simp only [Int.toNat_natCast]
    rw [e1, e2, e3]
  rw [hc, h3, (level_of k1 h1).1, (level_of k1 h1).2]
  by_cases hk : k2 = 10
  · subst hk
    rfl
  · have hl := level_of k2 (by omega)
    rw [hl.1, hl.2, if_neg hk]
    rfl

theorem decodePk_ok {R : Rounding} (ip1 ip2 ip3 : Int) (k1 k2 k3 : Nat) (p1 p2 p3 : ℚ) (h1 : k1 ≤ 7 ∨ k1 = 21)
    (h2 : k2 ≤ 7 ∨ k2 = 21 ∨ k2 = 10) (h3 : isInvalid k3 = false) (b1 : 32768 ≤ ip1) (b2 : 32768 ≤ ip2) (b3 : 32768 ≤ ip3)
    (d1 : decode R ip1 = ((k1 : Int), p1)) (d2 : decode R ip2 = ((k2 : Int), p2)) (d3 : decode R ip3 = ((k3 : Int), p3)) :
    decodePk R ip1 ip2 ip3 =
      (if k2 = 10 then 0 else 32, some (orderTimes (orderLevels (toThird ⟨p1, k1, p2, k2, p3, k3⟩)))) := by
  have hne : ¬ ((k1 : Int) = 10) := by omega
  have s2 : secondPk R ip2 = some (if k2 = 10 then 0 else 32, (k2 : Int), p2) := by
    unfold secondPk
    rw [if_neg (by omega), d2]
    by_cases hk : k2 = 10
    · subst hk
      rfl
    · have hl := level_of k2 (by omega)
      dsimp only
      rw [hl.1, hl.2, if_neg hk]
      simp only [Bool.false_eq_true, if_false, if_true]
      rw [if_neg (by omega)]
  have s3 : thirdPk R ip3 = some (0, (k3 : Int), p3) := by
    unfold thirdPk
    rw [if_neg (by omega), d3, h3]
    rfl
  unfold decodePk
  rw [if_neg (by omega), d1]
  dsimp only
  simp only [hne, if_false, d1, (level_of k1 h1).1, (level_of k1 h1).2, s2, s3, Bool.false_eq_true, Bool.not_true]
  rw [if_neg (by omega)]
  by_cases hk : k2 = 10
  · rw [if_pos hk]; rfl
  · rw [if_neg hk]; rfl

/-- **C61** (two levels and a time).  A second level in place of the time is put third, with a warning; the levels come back
from the lower one to the higher one, without any flag.  Missing: zero pressure, see `C61_top_witness`; the values excepted
in C48. -/
theorem C61_levels_partial {R : Rounding} (hR : Good R) (fuel k1 : Nat) (p1 p2 t : ℚ) (hk : k1 ≤ 7 ∨ k1 = 21)
    (h1 : Value k1 p1) (h2 : Value k1 p2) (h3 : Value 10 t) :
    ∃ ip1 ip2 ip3 lo' hi' t', encodePk R (fuel + 14) p1 k1 p2 k1 t 10 = some (32, ip1, ip2, ip3) ∧
      decodePk R ip1 ip2 ip3 = (0, some ⟨lo', k1, t', 10, hi', k1⟩) ∧ Ordered k1 p1 p2 lo' hi' ∧ |t' - t| ≤ tol 10 t := by
  obtain ⟨i, a, e1, b1, d1, c1⟩ := trip hR fuel k1 p1 h1
  obtain ⟨j, b, e2, b2, d2, c2⟩ := trip hR fuel k1 p2 h2
  obtain ⟨l, c, e3, b3, d3, c3⟩ := trip hR fuel 10 t h3
  have hl := level_of k1 hk
  have he := encodePk_ok (fuel + 14) k1 k1 10 p1 p2 t i j l hk (by omega) (by decide) e1 e2 e3
  rw [if_neg (by omega)] at he
  have hT : ∀ x y : ℚ, toThird ⟨x, k1, c, 10, y, k1⟩ = ⟨x, k1, c, 10, y, k1⟩ := by
    intro x y
    unfold toThird
    dsimp only
    rw [if_neg (by omega)]
  have hO : ∀ x y : ℚ, orderTimes ⟨x, k1, c, 10, y, k1⟩ = ⟨x, k1, c, 10, y, k1⟩ := by
    intro x y
    unfold orderTimes
    dsimp only
    rw [if_neg (by omega)]
  have fin : ∀ (m n : Int) (x y : ℚ), 32768 ≤ m → 32768 ≤ n → decode R m = ((k1 : Int), x) → decode R n = ((k1 : Int), y) →
      ((|x - p1| ≤ tol k1 p1 ∧ |y - p2| ≤ tol k1 p2) ∨
        ((ascending k1 = true ∨ descending k1 = true) ∧ |x - p2| ≤ tol k1 p2 ∧ |y - p1| ≤ tol k1 p1)) →
      ∃ lo' hi', decodePk R m l n = (0, some ⟨lo', k1, c, 10, hi', k1⟩) ∧ Ordered k1 p1 p2 lo' hi' := by
    intro m n x y hm hn dm dn h
    have hd := decodePk_ok m l n k1 10 k1 x c y hk (by omega) hl.2 hm b3 hn dm d3 dn
    rw [if_pos rfl] at hd
    have ho := ordered_of k1 hk p1 p2 x y h
    by_cases hs : (ascending k1 = true ∧ x > y) ∨ (descending k1 = true ∧ x < y)
    · rw [if_pos hs] at ho
      refine ⟨y, x, ?_, ho⟩
      rw [hd]
      refine congrArg (fun z => (0, some z)) ?_
      rw [show ((10 : Nat) : Int) = 10 from rfl, hT, show orderLevels ⟨x, k1, c, 10, y, k1⟩ = ⟨y, k1, c, 10, x, k1⟩ from if_pos ⟨rfl, hs⟩, hO]
    · rw [if_neg hs] at ho
      refine ⟨x, y, ?_, ho⟩
      rw [hd]
      refine congrArg (fun z => (0, some z)) ?_
      rw [show ((10 : Nat) : Int) = 10 from rfl, hT, show orderLevels ⟨x, k1, c, 10, y, k1⟩ = ⟨x, k1, c, 10, y, k1⟩ from if_neg (fun z => hs z.2), hO]
  by_cases hs : (p1 > p2 ∧ ascending k1 = true) ∨ (p1 < p2 ∧ descending k1 = true)
  · obtain ⟨lo', hi', f1, f2⟩ := fin j i b a b2 b1 d2 d1 (Or.inr ⟨by rcases hs with h | h; exacts [Or.inl h.2, Or.inr h.2], c2, c1⟩)
    refine ⟨j, l, i, lo', hi', c, ?_, f1, f2, c3⟩
    rw [show (10 : Int) = ((10 : Nat) : Int) from rfl, he]
    unfold arrange
    rw [if_pos ⟨rfl, hl.1, rfl⟩, if_pos hs]
  · obtain ⟨lo', hi', f1, f2⟩ := fin i j a b b1 b2 d1 d2 (Or.inl ⟨c1, c2⟩)
    refine ⟨i, l, j, lo', hi', c, ?_, f1, f2, c3⟩
    rw [show (10 : Int) = ((10 : Nat) : Int) from rfl, he]
    unfold arrange
    rw [if_pos ⟨rfl, hl.1, rfl⟩, if_neg hs]

/-- **C61** (level, time and time).  The times come back from the later one to the earlier one. -/
theorem C61_times_partial {R : Rounding} (hR : Good R) (fuel k1 : Nat) (p t u : ℚ) (hk : k1 ≤ 7 ∨ k1 = 21)
    (h1 : Value k1 p) (h2 : Value 10 t) (h3 : Value 10 u) :
    ∃ ip1 ip2 ip3 p' lo' hi', encodePk R (fuel + 14) p k1 t 10 u 10 = some (0, ip1, ip2, ip3) ∧
      decodePk R ip1 ip2 ip3 = (0, some ⟨p', k1, hi', 10, lo', 10⟩) ∧ |p' - p| ≤ tol k1 p ∧ lo' ≤ hi' ∧
      |lo' - min t u| ≤ max (tol 10 t) (tol 10 u) ∧ |hi' - max t u| ≤ max (tol 10 t) (tol 10 u) := by
  obtain ⟨i, a, e1, b1, d1, c1⟩ := trip hR fuel k1 p h1
  obtain ⟨j, b, e2, b2, d2, c2⟩ := trip hR fuel 10 t h2
  obtain ⟨l, c, e3, b3, d3, c3⟩ := trip hR fuel 10 u h3
  have he := encodePk_ok (fuel + 14) k1 10 10 p t u i j l hk (by omega) (by decide) e1 e2 e3
  rw [if_pos rfl] at he
  have hm := min_near (le_trans c2 (le_max_left _ (tol 10 u))) (le_trans c3 (le_max_right (tol 10 t) _))
  have hM := max_near (le_trans c2 (le_max_left _ (tol 10 u))) (le_trans c3 (le_max_right (tol 10 t) _))
  have fin : ∀ (m n : Int) (x y : ℚ), 32768 ≤ m → 32768 ≤ n → decode R m = (((10 : Nat) : Int), x) →
      decode R n = (((10 : Nat) : Int), y) → decodePk R i m n = (0, some ⟨a, k1, max x y, 10, min x y, 10⟩) := by
    intro m n x y hm hn dm dn
    have hd := decodePk_ok i m n k1 10 10 a x y hk (by omega) (by decide) b1 hm hn d1 dm dn
    rw [if_pos rfl] at hd
    rw [hd]
    refine congrArg (fun z => (0, some z)) ?_
    have g1 : toThird ⟨a, k1, x, ((10 : Nat) : Int), y, ((10 : Nat) : Int)⟩ = ⟨a, k1, x, 10, y, 10⟩ := by
      unfold toThird
      dsimp only
      rw [if_neg (by omega)]
      rfl
    have g2 : orderLevels ⟨a, k1, x, 10, y, 10⟩ = ⟨a, k1, x, 10, y, 10⟩ := by
      unfold orderLevels
      dsimp only
      rw [if_neg (by omega)]
    rw [g1, g2]
    unfold orderTimes
    dsimp only
    by_cases h : x < y
    · rw [if_pos ⟨rfl, rfl, h⟩, max_eq_right (le_of_lt h), min_eq_left (le_of_lt h)]
    · rw [if_neg (fun z => h z.2.2), max_eq_left (not_lt.1 h), min_eq_right (not_lt.1 h)]
  by_cases hs : t < u
  · refine ⟨i, l, j, a, min b c, max b c, ?_, ?_, c1, min_le_max, hm, hM⟩
    · rw [show (10 : Int) = ((10 : Nat) : Int) from rfl, he]
      unfold arrange
      rw [if_neg (by omega), if_pos ⟨rfl, rfl, hs⟩]
    · rw [fin l j c b b3 b2 d3 d2, max_comm, min_comm]
  · refine ⟨i, j, l, a, min b c, max b c, ?_, ?_, c1, min_le_max, hm, hM⟩
    · rw [show (10 : Int) = ((10 : Nat) : Int) from rfl, he]
      unfold arrange
      rw [if_neg (by omega), if_neg (fun h => hs h.2.2)]
    · exact fin j l b c b2 b3 d2 d3

/-- **C61** (third value of the kind of the level).  The levels come back from the lower one to the higher one; the second
value may be a time, or a level of any kind with a warning each way. -/
theorem C61_range_partial {R : Rounding} (hR : Good R) (fuel k1 k2 : Nat) (p1 p2 p3 : ℚ) (hk : k1 ≤ 7 ∨ k1 = 21)
    (hk2 : k2 ≤ 7 ∨ k2 = 21 ∨ k2 = 10) (h1 : Value k1 p1) (h2 : Value k2 p2) (h3 : Value k1 p3) :
    ∃ ip1 ip2 ip3 lo' hi' q, encodePk R (fuel + 14) p1 k1 p2 k2 p3 k1 = some (if k2 = 10 then 0 else 32, ip1, ip2, ip3) ∧
      decodePk R ip1 ip2 ip3 = (if k2 = 10 then 0 else 32, some ⟨lo', k1, q, k2, hi', k1⟩) ∧ Ordered k1 p1 p3 lo' hi' ∧
      |q - p2| ≤ tol k2 p2 := by
  obtain ⟨i, a, e1, b1, d1, c1⟩ := trip hR fuel k1 p1 h1
  obtain ⟨j, b, e2, b2, d2, c2⟩ := trip hR fuel k2 p2 h2
  obtain ⟨l, c, e3, b3, d3, c3⟩ := trip hR fuel k1 p3 h3
  have hl := level_of k1 hk
  have he := encodePk_ok (fuel + 14) k1 k2 k1 p1 p2 p3 i j l hk hk2 hl.2 e1 e2 e3
  have hd := decodePk_ok i j l k1 k2 k1 a b c hk hk2 hl.2 b1 b2 b3 d1 d2 d3
  have ha : arrange p1 p2 p3 k1 k2 k1 i j l = (i, j, l) := by
    unfold arrange
    rw [if_neg (by omega), if_neg (by omega)]
  rw [ha] at he
  have g1 : toThird ⟨a, k1, b, k2, c, k1⟩ = ⟨a, k1, b, k2, c, k1⟩ := by
    unfold toThird
    dsimp only
    rw [if_neg (by omega)]
  have g2 : ∀ x y : ℚ, orderTimes ⟨x, k1, b, k2, y, k1⟩ = ⟨x, k1, b, k2, y, k1⟩ := by
    intro x y
    unfold orderTimes
    dsimp only
    rw [if_neg (by omega)]
  rw [g1] at hd
  have ho := ordered_of k1 hk p1 p3 a c (Or.inl ⟨c1, c3⟩)
  by_cases hs : (ascending k1 = true ∧ a > c) ∨ (descending k1 = true ∧ a < c)
  · rw [if_pos hs] at ho
    refine ⟨i, j, l, c, a, b, he, ?_, ho, c2⟩
    rw [hd, show orderLevels ⟨a, k1, b, k2, c, k1⟩ = ⟨c, k1, b, k2, a, k1⟩ from if_pos ⟨rfl, hs⟩, g2]
  · rw [if_neg hs] at ho
    refine ⟨i, j, l, a, c, b, he, ?_, ho, c2⟩
    rw [hd, show orderLevels ⟨a, k1, b, k2, c, k1⟩ = ⟨a, k1, b, k2, c, k1⟩ from if_neg (fun z => hs z.2), g2]

/-- **C61** (no range).  Three values of which the third is not of the kind of the first, nor a time that goes with a time
or with two levels of one kind, come back as they are. -/
theorem C61_single_partial {R : Rounding} (hR : Good R) (fuel k1 k2 k3 : Nat) (p1 p2 p3 : ℚ) (hk : k1 ≤ 7 ∨ k1 = 21)
    (hk2 : k2 ≤ 7 ∨ k2 = 21 ∨ k2 = 10) (hne : k3 ≠ k1) (ht : ¬ (k3 = 10 ∧ (k2 = 10 ∨ k2 = k1)))
    (h1 : Value k1 p1) (h2 : Value k2 p2) (h3 : Value k3 p3) :
    ∃ ip1 ip2 ip3 p1' p2' p3', encodePk R (fuel + 14) p1 k1 p2 k2 p3 k3 = some (if k2 = 10 then 0 else 32, ip1, ip2, ip3) ∧
      decodePk R ip1 ip2 ip3 = (if k2 = 10 then 0 else 32, some ⟨p1', k1, p2', k2, p3', k3⟩) ∧
      |p1' - p1| ≤ tol k1 p1 ∧ |p2' - p2| ≤ tol k2 p2 ∧ |p3' - p3| ≤ tol k3 p3 := by
  obtain ⟨i, a, e1, b1, d1, c1⟩ := trip hR fuel k1 p1 h1
  obtain ⟨j, b, e2, b2, d2, c2⟩ := trip hR fuel k2 p2 h2
  obtain ⟨l, c, e3, b3, d3, c3⟩ := trip hR fuel k3 p3 h3
  have hv := (value_kind k3 p3 h3).1
  have he := encodePk_ok (fuel + 14) k1 k2 k3 p1 p2 p3 i j l hk hk2 hv e1 e2 e3
  have hd := decodePk_ok i j l k1 k2 k3 a b c hk hk2 hv b1 b2 b3 d1 d2 d3
  have ha : arrange p1 p2 p3 k1 k2 k3 i j l = (i, j, l) := by
    unfold arrange
    rw [if_neg (by omega), if_neg (by omega)]
  have g1 : toThird ⟨a, k1, b, k2, c, k3⟩ = ⟨a, k1, b, k2, c, k3⟩ := by
    unfold toThird
    dsimp only
    rw [if_neg (by omega)]
  have g2 : orderLevels ⟨a, k1, b, k2, c, k3⟩ = ⟨a, k1, b, k2, c, k3⟩ := by
    unfold orderLevels
    dsimp only
    rw [if_neg (by omega)]
  have g3 : orderTimes ⟨a, k1, b, k2, c, k3⟩ = ⟨a, k1, b, k2, c, k3⟩ := by
    unfold orderTimes
    dsimp only
    rw [if_neg (by omega)]
  rw [ha] at he
  rw [g1, g2, g3] at hd
  exact ⟨i, j, l, a, b, c, he, hd, c1, c2, c3⟩

/-- Zero pressure as a third value comes back as an arbitrary code, with the flag of a guess. -/
theorem C61_top_witness {R : Rounding} (hR : Good R) (fuel k1 : Nat) (p t : ℚ) (hk : k1 ≤ 7 ∨ k1 = 21)
    (h1 : Value k1 p) (h2 : Value 10 t) (hk3 : k1 ≠ 3) :
    ∃ ip1 ip2 p' t', encodePk R (fuel + 14) p k1 t 10 0 2 = some (0, ip1, ip2, 0) ∧
      decodePk R ip1 ip2 0 = (8, some ⟨p', k1, t', 10, 0, 3⟩) := by
  obtain ⟨i, a, e1, b1, d1, c1⟩ := trip hR fuel k1 p h1
  obtain ⟨j, b, e2, b2, d2, c2⟩ := trip hR fuel 10 t h2
  have he := encodePk_ok (fuel + 14) k1 10 2 p t 0 i j 0 hk (by omega) (by decide) e1 e2 (encode_zero R _)
  have ha : arrange p t 0 k1 ((10 : Nat) : Int) ((2 : Nat) : Int) i j 0 = (i, j, 0) := by
    unfold arrange
    rw [if_neg (by omega), if_neg (by omega)]
  rw [ha, if_pos rfl] at he
  refine ⟨i, j, a, b, he, ?_⟩
  have hne : ¬ ((k1 : Int) = 10) := by omega
  have s2 : secondPk R j = some (0, 10, b) := by
    unfold secondPk
    rw [if_neg (by omega), d2]
    rfl
  have s3 : thirdPk R 0 = some (8, 3, 0) := by
    unfold thirdPk
    rw [if_pos (by omega)]
    simp
  unfold decodePk
  rw [if_neg (by omega), d1]
  dsimp only
  simp only [hne, if_false, d1, (level_of k1 hk).1, (level_of k1 hk).2, s2, s3, Bool.false_eq_true, Bool.not_true]
  rw [if_neg (by omega)]
  have g1 : toThird ⟨a, k1, b, 10, 0, 3⟩ = ⟨a, k1, b, 10, 0, 3⟩ := by
    unfold toThird
    dsimp only
    rw [if_neg (by omega)]
  have g2 : orderLevels ⟨a, k1, b, 10, 0, 3⟩ = ⟨a, k1, b, 10, 0, 3⟩ := by
    unfold orderLevels
    dsimp only
    rw [if_neg (by omega)]
  have g3 : orderTimes ⟨a, k1, b, 10, 0, 3⟩ = ⟨a, k1, b, 10, 0, 3⟩ := by
    unfold orderTimes
    dsimp only
    rw [if_neg (by omega)]
  rw [g1, g2, g3]
  rfl

/-- **C61** (any codes).  Whatever the codes, a status without the flag of an error comes with a level and a time or a
level; levels of one kind are from the lower one to the higher one, two times from the later one to the earlier one. -/
theorem C61_sound (R : Rounding) (ip1 ip2 ip3 : Int) (h : (decodePk R ip1 ip2 ip3).1 &&& 64 = 0) :
    ∃ x, (decodePk R ip1 ip2 ip3).2 = some x ∧ (0 ≤ x.kind1 ∧ x.kind1 ≤ 7 ∨ x.kind1 = 21) ∧
      (x.kind2 = 10 ∨ 0 ≤ x.kind2 ∧ x.kind2 ≤ 7 ∨ x.kind2 = 21) ∧
      (x.kind2 = 10 → x.kind3 = 10 → x.p3 ≤ x.p2) ∧ (x.kind1 = x.kind3 → x.kind1 = 0 ∨ x.kind1 = 4 ∨ x.kind1 = 21 → x.p1 ≤ x.p3) ∧
      (x.kind1 = x.kind3 → x.kind1 = 1 ∨ x.kind1 = 2 ∨ x.kind1 = 7 → x.p3 ≤ x.p1) := by
  have hlev : ∀ k : Int, isLevel k = true → 0 ≤ k ∧ k ≤ 7 ∨ k = 21 := by
    intro k hk
    unfold isLevel at hk
    simpa using hk
  have key : ∀ (p1 p2 p3 : ℚ) (kind1 kind2 kind3 : Int), (0 ≤ kind1 ∧ kind1 ≤ 7 ∨ kind1 = 21) →
      (kind2 = 10 ∨ 0 ≤ kind2 ∧ kind2 ≤ 7 ∨ kind2 = 21) →
      ∃ x, orderTimes (orderLevels (toThird ⟨p1, kind1, p2, kind2, p3, kind3⟩)) = x ∧ (0 ≤ x.kind1 ∧ x.kind1 ≤ 7 ∨ x.kind1 = 21) ∧
      (x.kind2 = 10 ∨ 0 ≤ x.kind2 ∧ x.kind2 ≤ 7 ∨ x.kind2 = 21) ∧
      (x.kind2 = 10 → x.kind3 = 10 → x.p3 ≤ x.p2) ∧ (x.kind1 = x.kind3 → x.kind1 = 0 ∨ x.kind1 = 4 ∨ x.kind1 = 21 → x.p1 ≤ x.p3) ∧
      (x.kind1 = x.kind3 → x.kind1 = 1 ∨ x.kind1 = 2 ∨ x.kind1 = 7 → x.p3 ≤ x.p1) := by
    intro p1 p2 p3 kind1 kind2 kind3 a b
    obtain ⟨y, hy⟩ : ∃ y, y = toThird ⟨p1, kind1, p2, kind2, p3, kind3⟩ := ⟨_, rfl⟩
    have y1 : 0 ≤ y.kind1 ∧ y.kind1 ≤ 7 ∨ y.kind1 = 21 := by
      rw [hy]
      unfold toThird
      split <;> exact a
    have y2 : y.kind2 = 10 ∨ 0 ≤ y.kind2 ∧ y.kind2 ≤ 7 ∨ y.kind2 = 21 := by
      rw [hy]
      unfold toThird
      split
      · rename_i h; exact Or.inl h.2
      · exact b
    rw [← hy]
    obtain ⟨z, hz⟩ : ∃ z, z = orderLevels y := ⟨_, rfl⟩
    have z1 : z.kind1 = y.kind1 ∧ z.kind2 = y.kind2 ∧ z.kind3 = y.kind3 := by
      rw [hz]
      unfold orderLevels
      split <;> exact ⟨rfl, rfl, rfl⟩
    have z2 : (z.kind1 = z.kind3 → z.kind1 = 0 ∨ z.kind1 = 4 ∨ z.kind1 = 21 → z.p1 ≤ z.p3) ∧
        (z.kind1 = z.kind3 → z.kind1 = 1 ∨ z.kind1 = 2 ∨ z.kind1 = 7 → z.p3 ≤ z.p1) := by
      rw [z1.1, z1.2.2]
      constructor
      · intro h1 h2
        have e1 : ascending y.kind1 = true := by rcases h2 with h | h | h <;> rw [h] <;> decide
        have e2 : descending y.kind1 = false := by rcases h2 with h | h | h <;> rw [h] <;> decide
        rw [hz]
        unfold orderLevels
        rw [e1, e2]
        by_cases hlt : y.p1 > y.p3
        · rw [if_pos ⟨h1, Or.inl ⟨rfl, hlt⟩⟩]; exact le_of_lt hlt
        · rw [if_neg (by simp; intro _; exact le_of_not_gt hlt)]; exact le_of_not_gt hlt
      · intro h1 h2
        have e1 : ascending y.kind1 = false := by rcases h2 with h | h | h <;> rw [h] <;> decide
        have e2 : descending y.kind1 = true := by rcases h2 with h | h | h <;> rw [h] <;> decide
        rw [hz]
        unfold orderLevels
        rw [e1, e2]
        by_cases hlt : y.p1 < y.p3
        · rw [if_pos ⟨h1, Or.inr ⟨rfl, hlt⟩⟩]; exact le_of_lt hlt
        · rw [if_neg (by simp; intro _; exact not_lt.1 hlt)]; exact not_lt.1 hlt
    rw [← hz]
    unfold orderTimes
    split
    · rename_i h
      refine ⟨_, rfl, ?_, ?_, ?_, ?_, ?_⟩
      · simp only; rw [z1.1]; exact y1
      · simp only; rw [z1.2.1]; exact y2
      · intro _ _; exact le_of_lt h.2.2
      · intro h1; simp only at h1; rw [← h.1, h.2.1] at h1; rw [z1.1] at h1; omega
      · intro h1; simp only at h1; rw [← h.1, h.2.1] at h1; rw [z1.1] at h1; omega
    · rename_i h
      refine ⟨_, rfl, ?_, ?_, ?_, z2.1, z2.2⟩
      · rw [z1.1]; exact y1
      · rw [z1.2.1]; exact y2
      · intro h1 h2
        by_contra hc
        exact h ⟨by rw [h1, h2], h1, not_le.1 hc⟩
  unfold decodePk at h ⊢
  by_cases h0 : ip1 < 0 ∨ ip2 < 0 ∨ ip3 < 0
  · rw [if_pos h0] at h
    exact absurd h (by decide)
  rw [if_neg h0] at h ⊢
  dsimp only at h ⊢
  generalize (if (decode R ip1).1 = 10 then ip2 else ip1) = m at *
  generalize (if (decode R ip1).1 = 10 then ip1 else ip2) = n at *
  obtain ⟨s0, hs0⟩ : ∃ s, s = if (decode R ip1).1 = 10 then 32 else 0 := ⟨_, rfl⟩
  have hs0' : s0 = 32 ∨ s0 = 0 := by rw [hs0]; split <;> simp
  simp only [← hs0] at h ⊢
  obtain ⟨s1, hs1⟩ : ∃ s, s = if m < 32768 then 2 else 0 := ⟨_, rfl⟩
  have hs1' : s1 = 2 ∨ s1 = 0 := by rw [hs1]; split <;> simp
  simp only [← hs1] at h ⊢
  by_cases hi : isInvalid (decode R m).1 = true
  · rw [if_pos hi] at h
    exfalso
    rcases hs0' with rfl | rfl <;> exact absurd h (by decide)
  rw [if_neg hi] at h ⊢
  by_cases hl : isLevel (decode R m).1 = true
  swap
  · rw [if_pos (by simpa using hl)] at h
    exfalso
    rcases hs0' with rfl | rfl <;> rcases hs1' with rfl | rfl <;> exact absurd h (by decide)
  rw [if_neg (by simpa using hl)] at h ⊢
  obtain ⟨x, hx⟩ : ∃ x, x = secondPk R n := ⟨_, rfl⟩
  rw [← hx] at h ⊢
  rcases x with _ | ⟨s2, kind2, p2⟩
  · exfalso
    dsimp only at h
    rcases hs0' with rfl | rfl <;> rcases hs1' with rfl | rfl <;> exact absurd h (by decide)
  have hs2 : (s2 = 2 ∨ s2 = 0 ∨ s2 = 32) ∧ (kind2 = 10 ∨ 0 ≤ kind2 ∧ kind2 ≤ 7 ∨ kind2 = 21) := by
    unfold secondPk at hx
    split at hx
    · simp only [Option.some.injEq, Prod.mk.injEq] at hx; exact ⟨Or.inl hx.1, Or.inl hx.2.1⟩
    · split at hx
      · exact absurd hx (by simp)
      · split at hx
        · simp only [Option.some.injEq, Prod.mk.injEq] at hx; exact ⟨Or.inr (Or.inl hx.1), Or.inl hx.2.1⟩
        · split at hx
          · rename_i hlv
            simp only [Option.some.injEq, Prod.mk.injEq] at hx
            refine ⟨Or.inr (Or.inr hx.1), Or.inr ?_⟩
            have := hlev _ hlv
            rw [← hx.2] at this
            exact this
          · exact absurd hx (by simp)
  dsimp only at h ⊢
  obtain ⟨y, hy⟩ : ∃ x, x = thirdPk R ip3 := ⟨_, rfl⟩
  rw [← hy] at h ⊢
  rcases y with _ | ⟨s3, kind3, p3⟩
  · exfalso
    dsimp only at h
    rcases hs0' with rfl | rfl <;> rcases hs1' with rfl | rfl <;> rcases hs2.1 with rfl | rfl | rfl <;> exact absurd h (by decide)
  dsimp only
  obtain ⟨x, x1, x2⟩ := key (decode R m).2 p2 p3 (decode R m).1 kind2 kind3 (hlev _ hl) hs2.2
  exact ⟨x, by rw [x1], x2⟩

/-- Codes with the time first and the level second are decoded as if exchanged, with a warning. -/
theorem C61_exchange (R : Rounding) (ip1 ip2 ip3 : Int) (h1 : (decode R ip1).1 = 10) (h2 : (decode R ip2).1 ≠ 10) :
    decodePk R ip1 ip2 ip3 = ((decodePk R ip2 ip1 ip3).1 ||| (if ip1 < 0 ∨ ip2 < 0 ∨ ip3 < 0 then 0 else 32), (decodePk R ip2 ip1 ip3).2) := by
  unfold decodePk
  by_cases h0 : ip1 < 0 ∨ ip2 < 0 ∨ ip3 < 0
  · rw [if_pos h0, if_pos (by omega : ip2 < 0 ∨ ip1 < 0 ∨ ip3 < 0), if_pos h0]
    rfl
  rw [if_neg h0, if_neg (by omega : ¬ (ip2 < 0 ∨ ip1 < 0 ∨ ip3 < 0)), if_neg h0]
  dsimp only
  simp only [h1, h2, if_true, if_false, Nat.zero_or]
  split
  · rfl
  split
  · exact Prod.ext (by dsimp only; ac_rfl) rfl
  cases secondPk R ip1 with
  | none => exact Prod.ext (by dsimp only; ac_rfl) rfl
  | some x =>
    dsimp only
    cases thirdPk R ip3 with
    | none => exact Prod.ext (by dsimp only; ac_rfl) rfl
    | some y => exact Prod.ext (by dsimp only; ac_rfl) rfl

/-- Codes of two levels of a kind and a time, in that order, are decoded as if the time were second, with a warning. -/
theorem C61_legacy {R : Rounding} (ip1 ip2 ip3 : Int) (k : Nat) (a b c : ℚ) (hk : k ≤ 7 ∨ k = 21) (b1 : 32768 ≤ ip1)
    (b2 : 32768 ≤ ip2) (b3 : 32768 ≤ ip3) (d1 : decode R ip1 = ((k : Int), a)) (d2 : decode R ip2 = ((k : Int), b))
    (d3 : decode R ip3 = (((10 : Nat) : Int), c)) :
    (decodePk R ip1 ip2 ip3).1 = 32 ∧ (decodePk R ip1 ip3 ip2).1 = 0 ∧ (decodePk R ip1 ip2 ip3).2 = (decodePk R ip1 ip3 ip2).2 := by
  have h1 := decodePk_ok ip1 ip2 ip3 k k 10 a b c hk (by omega) (by decide) b1 b2 b3 d1 d2 d3
  have h2 := decodePk_ok ip1 ip3 ip2 k 10 k a c b hk (by omega) (level_of k hk).2 b1 b3 b2 d1 d3 d2
  rw [if_neg (by omega)] at h1
  rw [if_pos rfl] at h2
  have g1 : toThird ⟨a, k, b, k, c, ((10 : Nat) : Int)⟩ = ⟨a, k, c, ((10 : Nat) : Int), b, k⟩ := if_pos ⟨rfl, rfl⟩
  have g2 : toThird ⟨a, k, c, ((10 : Nat) : Int), b, k⟩ = ⟨a, k, c, ((10 : Nat) : Int), b, k⟩ := by
    unfold toThird
    dsimp only
    rw [if_neg (by omega)]
  rw [g1] at h1
  rw [g2] at h2
  rw [h1, h2]
  exact ⟨rfl, rfl, rfl⟩

/-! ### Cases -/

theorem value_int (k : Nat) (n : Int) (h : |n| < 2 ^ 24) (hc : Codable k n) (hn : 0 < n) : Value k (n : ℚ) := by
  have : (0 : ℚ) < n := by exact_mod_cast hn
  exact Or.inl ⟨single_int n h, hc, fun h => by linarith [h.2], fun h => by linarith [h.2]⟩

/-- A layer from 850 to 1000 hPa at hour 24, the levels given in the wrong order. -/
example : ∃ ip1 ip2 ip3 lo' hi' t',
    encodeIp ⟨nearest 24, nearest 53⟩ 14 ⟨850, 1000, 2⟩ ⟨24, 24, 10⟩ ⟨0, 0, -1⟩ = some (0, ip1, ip2, ip3) ∧
      (∀ junk, decodeIp ⟨nearest 24, nearest 53⟩ junk ip1 ip2 ip3 = (0, some (⟨lo', hi', 2⟩, ⟨t', t', 10⟩, ⟨0, 0, -1⟩))) ∧
      hi' ≤ lo' ∧ |lo' - 1000| ≤ 6 / 1000 ∧ |hi' - 850| ≤ 6 / 1000 ∧ |t' - 24| ≤ 2 / 10000 := by
  obtain ⟨a, b, c, lo', hi', t', h1, h2, h3, h4⟩ := C60_levels_partial good_nearest 0 2 850 1000 24 ⟨0, 0, -1⟩ (by omega) (by norm_num)
    (by have := value_int 2 850 (by norm_num) (by unfold Codable; norm_num) (by norm_num); exact_mod_cast this)
    (by have := value_int 2 1000 (by norm_num) (by unfold Codable; norm_num) (by norm_num); exact_mod_cast this)
    (by have := value_int 10 24 (by norm_num) (by unfold Codable; norm_num) (by norm_num); exact_mod_cast this)
  obtain ⟨g1, g2, g3⟩ := h3.2.1 (by norm_num)
  refine ⟨a, b, c, lo', hi', t', h1, h2, g1, ?_, ?_, ?_⟩
  · rw [show max (850 : ℚ) 1000 = 1000 by norm_num] at g2
    refine le_trans g2 ?_
    unfold tol
    norm_num
  · rw [show min (850 : ℚ) 1000 = 850 by norm_num] at g3
    refine le_trans g3 ?_
    unfold tol
    norm_num
  · refine le_trans h4 ?_
    unfold tol
    norm_num

/-- An accumulation from hour 6 to hour 16 at 10 hPa, as in the documentation of the package. -/
example : ∃ ip1 ip2 ip3 p' lo' hi',
    encodeIp ⟨nearest 24, nearest 53⟩ 14 ⟨10, 10, 2⟩ ⟨6, 16, 10⟩ ⟨0, 0, -1⟩ = some (0, ip1, ip2, ip3) ∧
      (∀ junk, decodeIp ⟨nearest 24, nearest 53⟩ junk ip1 ip2 ip3 = (0, some (⟨p', p', 2⟩, ⟨lo', hi', 10⟩, ⟨0, 0, -1⟩))) := by
  obtain ⟨a, b, c, p', lo', hi', h1, h2, -⟩ := C60_times_partial good_nearest 0 2 10 6 16 ⟨0, 0, -1⟩ (by omega) (by norm_num)
    (by have := value_int 2 10 (by norm_num) (by unfold Codable; norm_num) (by norm_num); exact_mod_cast this)
    (by have := value_int 10 6 (by norm_num) (by unfold Codable; norm_num) (by norm_num); exact_mod_cast this)
    (by have := value_int 10 16 (by norm_num) (by unfold Codable; norm_num) (by norm_num); exact_mod_cast this)
  exact ⟨a, b, c, p', lo', hi', h1, h2⟩

/-- Depths of 10 and 50 m: an error is reported for codes made without one. -/
example : ∃ ip1 ip2 ip3,
    encodeIp ⟨nearest 24, nearest 53⟩ 14 ⟨10, 50, 7⟩ ⟨24, 24, 10⟩ ⟨0, 0, -1⟩ = some (0, ip1, ip2, ip3) ∧
      ∀ junk, (decodeIp ⟨nearest 24, nearest 53⟩ junk ip1 ip2 ip3).1 = 64 := by
  obtain ⟨a, b, c, p', t', q', h1, h2⟩ := C60_depth_witness good_nearest 0 7 10 50 24 ⟨0, 0, -1⟩ (by omega) (by norm_num)
    (by have := value_int 7 10 (by norm_num) (by unfold Codable; norm_num) (by norm_num); exact_mod_cast this)
    (by have := value_int 7 50 (by norm_num) (by unfold Codable; norm_num) (by norm_num); exact_mod_cast this)
    (by have := value_int 10 24 (by norm_num) (by unfold Codable; norm_num) (by norm_num); exact_mod_cast this)
  exact ⟨a, b, c, h1, fun junk => by rw [h2]⟩

/-- The same depths as pairs. -/
example : ∃ ip1 ip2 ip3 lo' hi' t',
    encodePk ⟨nearest 24, nearest 53⟩ 14 10 7 50 7 24 10 = some (32, ip1, ip2, ip3) ∧
      decodePk ⟨nearest 24, nearest 53⟩ ip1 ip2 ip3 = (0, some ⟨lo', 7, t', 10, hi', 7⟩) ∧ |lo' - 50| ≤ 1 / 1000 := by
  obtain ⟨a, b, c, lo', hi', t', h1, h2, h3, -⟩ := C61_levels_partial good_nearest 0 7 10 50 24 (by omega)
    (by have := value_int 7 10 (by norm_num) (by unfold Codable; norm_num) (by norm_num); exact_mod_cast this)
    (by have := value_int 7 50 (by norm_num) (by unfold Codable; norm_num) (by norm_num); exact_mod_cast this)
    (by have := value_int 10 24 (by norm_num) (by unfold Codable; norm_num) (by norm_num); exact_mod_cast this)
  obtain ⟨g1, g2, g3⟩ := h3.2.1 (by norm_num)
  refine ⟨a, b, c, lo', hi', t', h1, h2, ?_⟩
  rw [show max (10 : ℚ) 50 = 50 by norm_num] at g2
  refine le_trans g2 ?_
  unfold tol
  norm_num

end Props.ConvertIp
