import Verif.Grid
import Mathlib.Algebra.Order.Round
import Mathlib.Data.Int.Log
import Mathlib.Tactic.Linarith
import Mathlib.Tactic.NormNum
import Mathlib.Tactic.Positivity
import Mathlib.Tactic.Ring

/-!
C47: grid descriptors decode to the parameters they were made from.
-/
namespace Props.Grid
open Verif.Grid

/-- What is known of the roundings: relative error (with an absolute term for very small numbers), exact integers,
signs kept. -/
structure Good (R : Rounding) : Prop where
  e4 : ∀ x, |R.r4 x - x| ≤ |x| / 2 ^ 24 + 1 / 2 ^ 100
  e8 : ∀ x, |R.r8 x - x| ≤ |x| / 2 ^ 53 + 1 / 2 ^ 100
  i4 : ∀ n : Int, |n| ≤ 2 ^ 24 → R.r4 n = n
  i8 : ∀ n : Int, |n| ≤ 2 ^ 53 → R.r8 n = n
  p4 : ∀ x, 0 ≤ x → 0 ≤ R.r4 x
  p8 : ∀ x, 0 ≤ x → 0 ≤ R.r8 x

/-- Exact arithmetic is one of the roundings covered. -/
theorem good_exact : Good ⟨id, id⟩ :=
  ⟨fun x => by simp; positivity, fun x => by simp; positivity, fun _ _ => rfl, fun _ _ => rfl, fun _ h => h, fun _ h => h⟩

theorem b4 {R : Rounding} (hR : Good R) (x B : ℚ) (h : |x| ≤ B) :
    x - (B / 16000000 + 1 / 10 ^ 20) ≤ R.r4 x ∧ R.r4 x ≤ x + (B / 16000000 + 1 / 10 ^ 20) := by
  have h1 := hR.e4 x
  have hB : 0 ≤ B := le_trans (abs_nonneg x) h
  have h2 : |x| / 2 ^ 24 ≤ B / 16000000 := by
    have : |x| / 2 ^ 24 ≤ B / 2 ^ 24 := by gcongr
    have : B / 2 ^ 24 ≤ B / 16000000 := by
      apply div_le_div_of_nonneg_left hB <;> norm_num
    linarith
  have h3 : (1 : ℚ) / 2 ^ 100 ≤ 1 / 10 ^ 20 := by norm_num
  rw [abs_le] at h1
  constructor <;> linarith [h1.1, h1.2]

theorem b8 {R : Rounding} (hR : Good R) (x B : ℚ) (h : |x| ≤ B) :
    x - (B / 10 ^ 15 + 1 / 10 ^ 20) ≤ R.r8 x ∧ R.r8 x ≤ x + (B / 10 ^ 15 + 1 / 10 ^ 20) := by
  have h1 := hR.e8 x
  have hB : 0 ≤ B := le_trans (abs_nonneg x) h
  have h2 : |x| / 2 ^ 53 ≤ B / 10 ^ 15 := by
    have : |x| / 2 ^ 53 ≤ B / 2 ^ 53 := by gcongr
    have : B / 2 ^ 53 ≤ B / 10 ^ 15 := by
      apply div_le_div_of_nonneg_left hB <;> norm_num
    linarith
  have h3 : (1 : ℚ) / 2 ^ 100 ≤ 1 / 10 ^ 20 := by norm_num
  rw [abs_le] at h1
  constructor <;> linarith [h1.1, h1.2]

theorem nint_near (x : ℚ) : x - 1 / 2 ≤ nint x ∧ (nint x : ℚ) ≤ x + 1 / 2 := by
  unfold nint
  split
  · have h1 := Int.floor_le (x + 1 / 2)
    have h2 := Int.lt_floor_add_one (x + 1 / 2)
    constructor <;> linarith
  · have h1 := Int.floor_le (-x + 1 / 2)
    have h2 := Int.lt_floor_add_one (-x + 1 / 2)
    push_cast
    constructor <;> linarith

theorem nint_eq (x : ℚ) (k : Int) (h1 : k - 1 / 2 < x) (h2 : x < k + 1 / 2) : nint x = k := by
  obtain ⟨a, b⟩ := nint_near x
  have h3 : ((nint x - k : Int) : ℚ) < 1 := by push_cast; linarith
  have h4 : (-1 : ℚ) < ((nint x - k : Int) : ℚ) := by push_cast; linarith
  have h5 : nint x - k < 1 := by exact_mod_cast h3
  have h6 : -1 < nint x - k := by exact_mod_cast h4
  omega

/-- Lower and upper bounds of a nearest integer. -/
theorem nint_range (x : ℚ) (a b : Int) (h1 : a - 1 / 2 < x) (h2 : x < b + 1 / 2) : a ≤ nint x ∧ nint x ≤ b := by
  obtain ⟨c, d⟩ := nint_near x
  have h3 : ((nint x : Int) : ℚ) < ((b + 1 : Int) : ℚ) := by push_cast; linarith
  have h4 : ((a - 1 : Int) : ℚ) < ((nint x : Int) : ℚ) := by push_cast; linarith
  have h5 : nint x < b + 1 := by exact_mod_cast h3
  have h6 : a - 1 < nint x := by exact_mod_cast h4
  omega

/-! ### Grid E -/

/-- Longitude from 0. -/
def turn (x : ℚ) : ℚ := if x < 0 then x + 360 else x

/-- Parameters within `e` of others. -/
def Near (e : ℚ) (a b : Reals) : Prop :=
  |a.1 - b.1| ≤ e ∧ |a.2.1 - b.2.1| ≤ e ∧ |a.2.2.1 - b.2.2.1| ≤ e ∧ |a.2.2.2 - b.2.2.2| ≤ e

/-- Descriptors for latitudes and longitudes in fortieths of a degree. -/
def code (n1 n2 n3 n4 : Int) : Ints :=
  let m3 := if n3 ≥ 16384 then n3 - 16384 else n3
  let m2 := if n2 < 0 then n2 + 7201 else n2
  (n1 / 4, m2 / 4, 4 * m3 + n1 % 4, 4 * n4 + m2 % 4)

theorem wrap_small (x : Int) (h : 0 ≤ x) (h' : x < 2 ^ 31) : wrap x = x := by
  unfold wrap
  rw [Int.bmod_def, Int.emod_eq_of_lt h (by omega)]
  rw [if_pos (by omega)]

theorem shr2_small (x : Int) (h : 0 ≤ x) (h' : x < 2 ^ 31) : shr2 x = x / 4 := by
  unfold shr2
  rw [Int.emod_eq_of_lt h (by omega)]

/-- The value of `k` fortieths of a degree in single precision. -/
def q (R : Rounding) (k : Int) : ℚ := R.r4 (R.r8 (k / 40))

theorem decode_code {R : Rounding} (hR : Good R) (n1 n2 n3 n4 : Int) (h1 : 0 ≤ n1) (h1' : n1 ≤ 7200) (h2 : -3600 ≤ n2)
    (h2' : n2 ≤ 3600) (h3 : 3600 ≤ n3) (h3' : n3 ≤ 18000) (h4 : 0 ≤ n4) (h4' : n4 ≤ 14400) :
    decodeE R (code n1 n2 n3 n4) = (q R (n1 - 3600), q R (n3 - 3600), q R n2, q R n4) := by
  unfold decodeE code
  dsimp only
  obtain ⟨m3, hm3⟩ : ∃ m, m = if n3 ≥ 16384 then n3 - 16384 else n3 := ⟨_, rfl⟩
  obtain ⟨m2, hm2⟩ : ∃ m, m = if n2 < 0 then n2 + 7201 else n2 := ⟨_, rfl⟩
  rw [← hm3, ← hm2]
  have hm3r : 0 ≤ m3 ∧ m3 < 16384 ∧ (if m3 < 3559 then m3 + 16384 else m3) = n3 := by
    rw [hm3]
    split <;> split <;> omega
  have hm2r : 0 ≤ m2 ∧ m2 ≤ 7200 ∧ (if m2 > 3600 then m2 - 7201 else m2) = n2 := by
    rw [hm2]
    split <;> split <;> omega
  have e3 : shr2 (4 * m3 + n1 % 4) = m3 := by
    rw [shr2_small _ (by omega) (by omega)]; omega
  have e4 : shr2 (4 * n4 + m2 % 4) = n4 := by
    rw [shr2_small _ (by omega) (by omega)]; omega
  have e1 : shl2or (n1 / 4) (low2 (4 * m3 + n1 % 4)) = n1 := by
    unfold shl2or low2
    rw [wrap_small _ (by omega) (by omega)]; omega
  have e2 : shl2or (m2 / 4) (low2 (4 * n4 + m2 % 4)) = m2 := by
    unfold shl2or low2
    rw [wrap_small _ (by omega) (by omega)]; omega
  rw [e1, e2, e3, e4, hm2r.2.2, hm3r.2.2]
  have i1 : R.r8 ((n1 : ℚ) - 3600) = ((n1 - 3600 : Int) : ℚ) := by
    have := hR.i8 (n1 - 3600) (by rw [abs_le]; constructor <;> omega)
    push_cast at this ⊢
    exact this
  have i3 : R.r8 ((n3 : ℚ) - 3600) = ((n3 - 3600 : Int) : ℚ) := by
    have := hR.i8 (n3 - 3600) (by rw [abs_le]; constructor <;> omega)
    push_cast at this ⊢
    exact this
  rw [i1, i3]
  rfl

theorem encode_code {R : Rounding} (fuel : Nat) (x1 x2 x3 x4 y2 y4 : ℚ) (n1 n2 n3 n4 : Int) (h1 : 0 ≤ n1) (h1' : n1 ≤ 7200)
    (h2 : -3600 ≤ n2) (h2' : n2 ≤ 3600) (h3 : 3600 ≤ n3) (h3' : n3 ≤ 18000) (h4 : 0 ≤ n4) (h4' : n4 ≤ 14400)
    (t2 : addTurns R fuel x2 = some y2) (t4 : addTurns R fuel x4 = some y4)
    (e1 : nint (R.r4 (R.r4 (x1 + 90) * 40)) = n1) (e2 : nint (R.r4 (x3 * 40)) = n2)
    (e3 : nint (R.r4 (R.r4 (y2 + 90) * 40)) = n3) (e4 : nint (R.r4 (y4 * 40)) = n4) :
    encodeE R fuel (x1, x2, x3, x4) = some (code n1 n2 n3 n4) := by
  unfold encodeE code
  simp only [t2, t4, e1, e2, e3, e4]
  obtain ⟨m3, hm3⟩ : ∃ m, m = if n3 ≥ 16384 then n3 - 16384 else n3 := ⟨_, rfl⟩
  obtain ⟨m2, hm2⟩ : ∃ m, m = if n2 < 0 then n2 + 7201 else n2 := ⟨_, rfl⟩
  rw [← hm3, ← hm2]
  have hm3r : 0 ≤ m3 ∧ m3 < 16384 := by
    rw [hm3]
    split <;> omega
  have hm2r : 0 ≤ m2 ∧ m2 ≤ 7200 := by
    rw [hm2]
    split <;> omega
  rw [shr2_small _ h1 (by omega), shr2_small _ hm2r.1 (by omega)]
  unfold shl2or low2
  rw [wrap_small _ (by omega) (by omega), wrap_small _ (by omega) (by omega)]

theorem q_near {R : Rounding} (hR : Good R) (k : Int) (h : -14400 ≤ k) (h' : k ≤ 14400) :
    (k : ℚ) / 40 - 1 / 20000 ≤ q R k ∧ q R k ≤ k / 40 + 1 / 20000 := by
  have g1 : (-14400 : ℚ) ≤ k := by exact_mod_cast h
  have g2 : (k : ℚ) ≤ 14400 := by exact_mod_cast h'
  unfold q
  have a := b8 hR (k / 40) 360 (by rw [abs_le]; constructor <;> linarith)
  have b := b4 hR (R.r8 (k / 40)) 361 (by rw [abs_le]; constructor <;> linarith [a.1, a.2])
  constructor <;> linarith [a.1, a.2, b.1, b.2]

theorem turns_pos {R : Rounding} (fuel : Nat) (x : ℚ) (h : 0 ≤ x) : addTurns R (fuel + 1) x = some x := by
  simp only [addTurns]
  rw [if_neg (not_lt.2 h)]

theorem turns_near {R : Rounding} (hR : Good R) (fuel : Nat) (x : ℚ) (h : -360 ≤ x) (h' : x ≤ 360) :
    ∃ y, addTurns R (fuel + 2) x = some y ∧ 0 ≤ y ∧ turn x - 1 / 20000 ≤ y ∧ y ≤ turn x + 1 / 20000 ∧ 0 ≤ turn x ∧
      turn x ≤ 360 := by
  unfold turn
  by_cases h0 : x < 0
  · rw [if_pos h0]
    have hp := hR.p4 (x + 360) (by linarith)
    have a := b4 hR (x + 360) 360 (by rw [abs_le]; constructor <;> linarith)
    refine ⟨R.r4 (x + 360), ?_, hp, by linarith [a.1], by linarith [a.2], by linarith, by linarith⟩
    have : addTurns R (fuel + 2) x = addTurns R (fuel + 1) (R.r4 (x + 360)) := by
      conv_lhs => unfold addTurns
      rw [if_pos h0]
    rw [this]
    exact turns_pos fuel _ hp
  · rw [if_neg h0]
    rw [not_lt] at h0
    exact ⟨x, turns_pos (fuel + 1) x h0, h0, by linarith, by linarith, h0, h'⟩

/-- Encoding of parameters near the lattice. -/
theorem encode_near {R : Rounding} (hR : Good R) (x : ℚ) (B : ℚ) (hB : B = 90 ∨ B = 0) (h : -500 ≤ x) (h' : x ≤ 500) :
    (x + B) * 40 - 1 / 100 ≤ R.r4 (R.r4 (x + B) * 40) ∧ R.r4 (R.r4 (x + B) * 40) ≤ (x + B) * 40 + 1 / 100 := by
  have a := b4 hR (x + B) 590 (by rw [abs_le]; rcases hB with rfl | rfl <;> constructor <;> linarith)
  have b := b4 hR (R.r4 (x + B) * 40) 24000 (by
    rw [abs_le]; rcases hB with rfl | rfl <;> constructor <;> linarith [a.1, a.2])
  constructor <;> linarith [a.1, a.2, b.1, b.2]

theorem scale_near {R : Rounding} (hR : Good R) (x : ℚ) (h : -500 ≤ x) (h' : x ≤ 500) :
    x * 40 - 1 / 100 ≤ R.r4 (x * 40) ∧ R.r4 (x * 40) ≤ x * 40 + 1 / 100 := by
  have a := b4 hR (x * 40) 20000 (by rw [abs_le]; constructor <;> linarith)
  constructor <;> linarith [a.1, a.2]

/-- Grid E: encoding the lattice point with these numbers. -/
theorem encode_q {R : Rounding} (hR : Good R) (fuel : Nat) (a b c d : Int) (h1 : -3600 ≤ a) (h1' : a ≤ 3600) (h2 : 0 ≤ b)
    (h2' : b ≤ 14400) (h3 : -3600 ≤ c) (h3' : c ≤ 3600) (h4 : 0 ≤ d) (h4' : d ≤ 14400) :
    encodeE R (fuel + 1) (q R a, q R b, q R c, q R d) = some (code (a + 3600) c (b + 3600) d) := by
  have pb : 0 ≤ q R b := hR.p4 _ (hR.p8 _ (by have : (0 : ℚ) ≤ b := by exact_mod_cast h2
                                              positivity))
  have pd : 0 ≤ q R d := hR.p4 _ (hR.p8 _ (by have : (0 : ℚ) ≤ d := by exact_mod_cast h4
                                              positivity))
  have qa := q_near hR a (by omega) (by omega)
  have qb := q_near hR b (by omega) (by omega)
  have qc := q_near hR c (by omega) (by omega)
  have qd := q_near hR d (by omega) (by omega)
  have a1 : (-3600 : ℚ) ≤ a := by exact_mod_cast h1
  have a2 : (a : ℚ) ≤ 3600 := by exact_mod_cast h1'
  have b1 : (0 : ℚ) ≤ b := by exact_mod_cast h2
  have b2 : (b : ℚ) ≤ 14400 := by exact_mod_cast h2'
  have c1 : (-3600 : ℚ) ≤ c := by exact_mod_cast h3
  have c2 : (c : ℚ) ≤ 3600 := by exact_mod_cast h3'
  have d1 : (0 : ℚ) ≤ d := by exact_mod_cast h4
  have d2 : (d : ℚ) ≤ 14400 := by exact_mod_cast h4'
  refine encode_code (fuel + 1) _ _ _ _ _ _ (a + 3600) c (b + 3600) d (by omega) (by omega) h3 h3' (by omega) (by omega)
    h4 h4' (turns_pos fuel _ pb) (turns_pos fuel _ pd) ?_ ?_ ?_ ?_
  · have := encode_near hR (q R a) 90 (Or.inl rfl) (by linarith [qa.1]) (by linarith [qa.2])
    apply nint_eq <;> push_cast <;> linarith [this.1, this.2, qa.1, qa.2]
  · have := scale_near hR (q R c) (by linarith [qc.1]) (by linarith [qc.2])
    apply nint_eq <;> linarith [this.1, this.2, qc.1, qc.2]
  · have := encode_near hR (q R b) 90 (Or.inl rfl) (by linarith [qb.1]) (by linarith [qb.2])
    apply nint_eq <;> push_cast <;> linarith [this.1, this.2, qb.1, qb.2]
  · have := scale_near hR (q R d) (by linarith [qd.1]) (by linarith [qd.2])
    apply nint_eq <;> linarith [this.1, this.2, qd.1, qd.2]

/-- C47 for grid E, on the lattice: latitudes and longitudes that are multiples of a fortieth of a degree, rounded to
single precision, come back bit for bit. -/
theorem C47_E_lattice {R : Rounding} (hR : Good R) (fuel : Nat) (a b c d : Int) (h1 : -3600 ≤ a) (h1' : a ≤ 3600)
    (h2 : 0 ≤ b) (h2' : b ≤ 14400) (h3 : -3600 ≤ c) (h3' : c ≤ 3600) (h4 : 0 ≤ d) (h4' : d ≤ 14400) :
    let x : Reals := (R.r4 (R.r8 (a / 40)), R.r4 (R.r8 (b / 40)), R.r4 (R.r8 (c / 40)), R.r4 (R.r8 (d / 40)))
    ∃ ig, encodeE R (fuel + 1) x = some ig ∧ decodeE R ig = x := by
  refine ⟨_, encode_q hR fuel a b c d h1 h1' h2 h2' h3 h3' h4 h4', ?_⟩
  rw [decode_code hR _ _ _ _ (by omega) (by omega) h3 h3' (by omega) (by omega) h4 h4']
  rw [show a + 3600 - 3600 = a by omega, show b + 3600 - 3600 = b by omega]
  rfl

/-- C47 for grid E, for all parameters: the descriptors fit in 16 bits, decode to within a half fortieth of a degree
(and rounding), and are stable from then on. -/
theorem C47_E {R : Rounding} (hR : Good R) (fuel : Nat) (x1 x2 x3 x4 : ℚ) (h1 : |x1| ≤ 90) (h2 : |x2| ≤ 360)
    (h3 : |x3| ≤ 90) (h4 : |x4| ≤ 360) :
    ∃ ig, encodeE R (fuel + 2) (x1, x2, x3, x4) = some ig ∧
      Near (1 / 80 + 1 / 1000) (decodeE R ig) (x1, turn x2, x3, turn x4) ∧
      encodeE R (fuel + 2) (decodeE R ig) = some ig ∧
      (0 ≤ ig.1 ∧ ig.1 < 2 ^ 16) ∧ (0 ≤ ig.2.1 ∧ ig.2.1 < 2 ^ 16) ∧ (0 ≤ ig.2.2.1 ∧ ig.2.2.1 < 2 ^ 16) ∧
      (0 ≤ ig.2.2.2 ∧ ig.2.2.2 < 2 ^ 16) := by
  rw [abs_le] at h1 h2 h3 h4
  obtain ⟨y2, t2, p2, l2, u2, z2, w2⟩ := turns_near hR fuel x2 h2.1 h2.2
  obtain ⟨y4, t4, p4, l4, u4, z4, w4⟩ := turns_near hR fuel x4 h4.1 h4.2
  have r1 := encode_near hR x1 90 (Or.inl rfl) (by linarith) (by linarith)
  have r2 := encode_near hR y2 90 (Or.inl rfl) (by linarith) (by linarith)
  have r3 := scale_near hR x3 (by linarith) (by linarith)
  have r4 := scale_near hR y4 (by linarith) (by linarith)
  obtain ⟨n1, e1⟩ : ∃ n, n = nint (R.r4 (R.r4 (x1 + 90) * 40)) := ⟨_, rfl⟩
  obtain ⟨n3, e3⟩ : ∃ n, n = nint (R.r4 (R.r4 (y2 + 90) * 40)) := ⟨_, rfl⟩
  obtain ⟨n2, e2⟩ : ∃ n, n = nint (R.r4 (x3 * 40)) := ⟨_, rfl⟩
  obtain ⟨n4, e4⟩ : ∃ n, n = nint (R.r4 (y4 * 40)) := ⟨_, rfl⟩
  have g1 := nint_range (R.r4 (R.r4 (x1 + 90) * 40)) 0 7200 (by push_cast; linarith [r1.1]) (by push_cast; linarith [r1.2])
  have g3 := nint_range (R.r4 (R.r4 (y2 + 90) * 40)) 3600 18000 (by push_cast; linarith [r2.1]) (by push_cast; linarith [r2.2])
  have g2 := nint_range (R.r4 (x3 * 40)) (-3600) 3600 (by push_cast; linarith [r3.1]) (by push_cast; linarith [r3.2])
  have g4 := nint_range (R.r4 (y4 * 40)) 0 14400 (by push_cast; linarith [r4.1]) (by push_cast; linarith [r4.2])
  have m1 := nint_near (R.r4 (R.r4 (x1 + 90) * 40))
  have m3 := nint_near (R.r4 (R.r4 (y2 + 90) * 40))
  have m2 := nint_near (R.r4 (x3 * 40))
  have m4 := nint_near (R.r4 (y4 * 40))
  rw [← e1] at g1 m1; rw [← e2] at g2 m2; rw [← e3] at g3 m3; rw [← e4] at g4 m4
  refine ⟨code n1 n2 n3 n4, encode_code (fuel + 2) x1 x2 x3 x4 y2 y4 n1 n2 n3 n4 g1.1 g1.2 g2.1 g2.2 g3.1 g3.2 g4.1 g4.2
    t2 t4 e1.symm e2.symm e3.symm e4.symm, ?_, ?_, ?_⟩
  · rw [decode_code hR _ _ _ _ g1.1 g1.2 g2.1 g2.2 g3.1 g3.2 g4.1 g4.2]
    have q1 := q_near hR (n1 - 3600) (by omega) (by omega)
    have q3 := q_near hR (n3 - 3600) (by omega) (by omega)
    have q2 := q_near hR n2 (by omega) (by omega)
    have q4 := q_near hR n4 (by omega) (by omega)
    push_cast at q1 q3
    refine ⟨?_, ?_, ?_, ?_⟩ <;> rw [abs_le] <;> constructor <;> dsimp only
    · linarith [q1.1, q1.2, m1.1, m1.2, r1.1, r1.2]
    · linarith [q1.1, q1.2, m1.1, m1.2, r1.1, r1.2]
    · linarith [q3.1, q3.2, m3.1, m3.2, r2.1, r2.2]
    · linarith [q3.1, q3.2, m3.1, m3.2, r2.1, r2.2]
    · linarith [q2.1, q2.2, m2.1, m2.2, r3.1, r3.2]
    · linarith [q2.1, q2.2, m2.1, m2.2, r3.1, r3.2]
    · linarith [q4.1, q4.2, m4.1, m4.2, r4.1, r4.2]
    · linarith [q4.1, q4.2, m4.1, m4.2, r4.1, r4.2]
  · rw [decode_code hR _ _ _ _ g1.1 g1.2 g2.1 g2.2 g3.1 g3.2 g4.1 g4.2]
    rw [encode_q hR (fuel + 1) (n1 - 3600) (n3 - 3600) n2 n4 (by omega) (by omega) (by omega) (by omega) g2.1 g2.2 g4.1 g4.2]
    rw [show n1 - 3600 + 3600 = n1 by omega, show n3 - 3600 + 3600 = n3 by omega]
  · unfold code
    dsimp only
    refine ⟨⟨by omega, by omega⟩, ⟨?_, ?_⟩, ⟨?_, ?_⟩, ?_, ?_⟩ <;> split <;> try split
    all_goals omega

/-! ### Grid L -/

/-- An integer multiplied by a constant, with all roundings to single precision. -/
theorem mul4 {R : Rounding} (hR : Good R) (g : Int) (c : ℚ) (hg : |g| ≤ 40000) (hc : 0 ≤ c) (hc' : c ≤ 1) :
    (g : ℚ) * c - 1 / 100000 * (1000 * c + 1 / 100) ≤ R.r4 (R.r4 g * R.r4 c) ∧
      R.r4 (R.r4 g * R.r4 c) ≤ g * c + 1 / 100000 * (1000 * c + 1 / 100) := by
  have e : R.r4 (g : ℚ) = g := hR.i4 g (by omega)
  rw [e]
  have h1 : |(g : ℚ)| ≤ 40000 := by exact_mod_cast hg
  have h2 := b4 hR c c (by rw [abs_of_nonneg hc])
  have h3 : |(g : ℚ) * R.r4 c - g * c| ≤ 40000 * (c / 16000000 + 1 / 10 ^ 20) := by
    rw [← mul_sub, abs_mul]
    apply mul_le_mul h1 _ (abs_nonneg _) (by norm_num)
    rw [abs_le]
    constructor <;> linarith [h2.1, h2.2]
  have h4 : |(g : ℚ) * c| ≤ 40000 * c := by
    rw [abs_mul, abs_of_nonneg hc]
    exact mul_le_mul_of_nonneg_right h1 hc
  rw [abs_le] at h3 h4
  have h5 := b4 hR ((g : ℚ) * R.r4 c) (40001 * c + 1 / 1000) (by
    rw [abs_le]
    constructor <;> linarith [h3.1, h3.2, h4.1, h4.2])
  constructor <;> linarith [h5.1, h5.2, h3.1, h3.2]

theorem hund4 {R : Rounding} (hR : Good R) (g : Int) (hg : |g| ≤ 40000) :
    (g : ℚ) / 100 - 1 / 9000 ≤ R.r4 (R.r4 g * R.r4 (1 / 100)) ∧ R.r4 (R.r4 g * R.r4 (1 / 100)) ≤ g / 100 + 1 / 9000 := by
  have := mul4 hR g (1 / 100) hg (by norm_num) (by norm_num)
  constructor <;> linarith [this.1, this.2]

theorem lat4 {R : Rounding} (hR : Good R) (g : Int) (hg : |g| ≤ 40000) :
    (g : ℚ) / 100 - 90 - 1 / 6000 ≤ R.r4 (R.r4 (R.r4 g * R.r4 (1 / 100)) - 90) ∧
      R.r4 (R.r4 (R.r4 g * R.r4 (1 / 100)) - 90) ≤ g / 100 - 90 + 1 / 6000 := by
  have h := hund4 hR g hg
  have h1 : |(g : ℚ)| ≤ 40000 := by exact_mod_cast hg
  rw [abs_le] at h1
  have := b4 hR (R.r4 (R.r4 g * R.r4 (1 / 100)) - 90) 500 (by rw [abs_le]; constructor <;> linarith [h.1, h.2])
  constructor <;> linarith [this.1, this.2, h.1, h.2]

theorem cent_near {R : Rounding} (hR : Good R) (x : ℚ) (h : |x| ≤ 500) :
    x * 100 - 1 / 200 ≤ R.r4 (x * 100) ∧ R.r4 (x * 100) ≤ x * 100 + 1 / 200 := by
  rw [abs_le] at h
  have a := b4 hR (x * 100) 50000 (by rw [abs_le]; constructor <;> linarith [h.1, h.2])
  constructor <;> linarith [a.1, a.2]

theorem cent90_near {R : Rounding} (hR : Good R) (x : ℚ) (h : |x| ≤ 500) :
    (90 + x) * 100 - 1 / 100 ≤ R.r4 (R.r4 (90 + x) * 100) ∧ R.r4 (R.r4 (90 + x) * 100) ≤ (90 + x) * 100 + 1 / 100 := by
  rw [abs_le] at h
  have a := b4 hR (90 + x) 590 (by rw [abs_le]; constructor <;> linarith [h.1, h.2])
  have b := b4 hR (R.r4 (90 + x) * 100) 60000 (by rw [abs_le]; constructor <;> linarith [h.1, h.2, a.1, a.2])
  constructor <;> linarith [a.1, a.2, b.1, b.2]

theorem addUp_pos (p : Int) (fuel : Nat) (x : Int) (h : 0 ≤ x) : addUp p (fuel + 1) x = some x := by
  simp only [addUp]
  rw [if_neg (by omega)]

theorem addUp_once (p : Int) (fuel : Nat) (x : Int) (h : x < 0) (h' : 0 ≤ x + p) : addUp p (fuel + 2) x = some (x + p) := by
  have : addUp p (fuel + 2) x = addUp p (fuel + 1) (x + p) := by
    conv_lhs => unfold addUp
    rw [if_pos h]
  rw [this]
  exact addUp_pos p fuel _ h'

/-- C47 for grid L, near the lattice: parameters within a thousandth of a degree of hundredths of a degree give
these hundredths, which decode to within rounding. -/
theorem C47_L_lattice {R : Rounding} (hR : Good R) (fuel : Nat) (a b c d : Int) (h1 : |a| ≤ 9000) (h2 : 0 ≤ b ∧ b ≤ 36000)
    (h3 : |c| ≤ 36000) (h4 : |d| ≤ 36000) (x : Reals) (hx : Near (1 / 1000) x (a / 100, b / 100, c / 100, d / 100)) :
    encodeL R (fuel + 1) x = some (c, d, a + 9000, b) ∧
      Near (1 / 5000) (decodeL R (c, d, a + 9000, b)) (a / 100, b / 100, c / 100, d / 100) := by
  obtain ⟨x1, x2, x3, x4⟩ := x
  obtain ⟨n1, n2, n3, n4⟩ := hx
  dsimp only at n1 n2 n3 n4
  have a1 : |(a : ℚ)| ≤ 9000 := by exact_mod_cast h1
  have b1 : (0 : ℚ) ≤ b := by exact_mod_cast h2.1
  have b2 : (b : ℚ) ≤ 36000 := by exact_mod_cast h2.2
  have c1 : |(c : ℚ)| ≤ 36000 := by exact_mod_cast h3
  have d1 : |(d : ℚ)| ≤ 36000 := by exact_mod_cast h4
  rw [abs_le] at a1 c1 d1 n1 n2 n3 n4
  constructor
  · unfold encodeL
    dsimp only
    have r3 := cent_near hR x3 (by rw [abs_le]; constructor <;> linarith)
    have r4 := cent_near hR x4 (by rw [abs_le]; constructor <;> linarith)
    have r2 := cent_near hR x2 (by rw [abs_le]; constructor <;> linarith)
    have r1 := cent90_near hR x1 (by rw [abs_le]; constructor <;> linarith)
    have e3 : nint (R.r4 (x3 * 100)) = c := by apply nint_eq <;> linarith
    have e4 : nint (R.r4 (x4 * 100)) = d := by apply nint_eq <;> linarith
    have e2 : nint (R.r4 (x2 * 100)) = b := by apply nint_eq <;> linarith
    have e1 : nint (R.r4 (R.r4 (90 + x1) * 100)) = a + 9000 := by apply nint_eq <;> push_cast <;> linarith
    rw [e1, e2, e3, e4, addUp_pos _ _ _ h2.1]
  · unfold decodeL
    dsimp only
    have hc := hund4 hR c (by omega)
    have hd := hund4 hR d (by omega)
    have hb := hund4 hR b (by rw [abs_le]; constructor <;> omega)
    have ha := lat4 hR (a + 9000) (by rw [abs_le] at h1 ⊢; constructor <;> omega)
    push_cast at ha ⊢
    refine ⟨?_, ?_, ?_, ?_⟩ <;> rw [abs_le] <;> constructor <;> dsimp only <;> linarith

/-- C47 for grid L, for all parameters: within half a hundredth of a degree (and rounding), the longitude up to a
full turn, and stable from then on. -/
theorem C47_L {R : Rounding} (hR : Good R) (fuel : Nat) (x1 x2 x3 x4 : ℚ) (h1 : |x1| ≤ 90) (h2 : |x2| ≤ 360)
    (h3 : |x3| ≤ 360) (h4 : |x4| ≤ 360) :
    ∃ ig, encodeL R (fuel + 2) (x1, x2, x3, x4) = some ig ∧
      (Near (1 / 200 + 1 / 1000) (decodeL R ig) (x1, x2, x3, x4) ∨
        x2 < 0 ∧ Near (1 / 200 + 1 / 1000) (decodeL R ig) (x1, x2 + 360, x3, x4)) ∧
      encodeL R (fuel + 2) (decodeL R ig) = some ig := by
  have r1 := cent90_near hR x1 (by linarith)
  have r2 := cent_near hR x2 (by linarith)
  have r3 := cent_near hR x3 (by linarith)
  have r4 := cent_near hR x4 (by linarith)
  rw [abs_le] at h1 h2 h3 h4
  obtain ⟨n1, e1⟩ : ∃ n, n = nint (R.r4 (R.r4 (90 + x1) * 100)) := ⟨_, rfl⟩
  obtain ⟨n2, e2⟩ : ∃ n, n = nint (R.r4 (x2 * 100)) := ⟨_, rfl⟩
  obtain ⟨n3, e3⟩ : ∃ n, n = nint (R.r4 (x3 * 100)) := ⟨_, rfl⟩
  obtain ⟨n4, e4⟩ : ∃ n, n = nint (R.r4 (x4 * 100)) := ⟨_, rfl⟩
  have g1 := nint_range (R.r4 (R.r4 (90 + x1) * 100)) 0 18000 (by push_cast; linarith) (by push_cast; linarith)
  have g2 := nint_range (R.r4 (x2 * 100)) (-36000) 36000 (by push_cast; linarith) (by push_cast; linarith)
  have g3 := nint_range (R.r4 (x3 * 100)) (-36000) 36000 (by push_cast; linarith) (by push_cast; linarith)
  have g4 := nint_range (R.r4 (x4 * 100)) (-36000) 36000 (by push_cast; linarith) (by push_cast; linarith)
  have m1 := nint_near (R.r4 (R.r4 (90 + x1) * 100))
  have m2 := nint_near (R.r4 (x2 * 100))
  have m3 := nint_near (R.r4 (x3 * 100))
  have m4 := nint_near (R.r4 (x4 * 100))
  rw [← e1] at g1 m1; rw [← e2] at g2 m2; rw [← e3] at g3 m3; rw [← e4] at g4 m4
  obtain ⟨b, hb, hbr, hbc⟩ : ∃ b, addUp 36000 (fuel + 2) n2 = some b ∧ (0 ≤ b ∧ b ≤ 36000) ∧
      (b = n2 ∨ n2 < 0 ∧ b = n2 + 36000) := by
    by_cases h : n2 < 0
    · exact ⟨n2 + 36000, addUp_once _ _ _ h (by omega), ⟨by omega, by omega⟩, Or.inr ⟨h, rfl⟩⟩
    · exact ⟨n2, addUp_pos _ _ _ (by omega), ⟨by omega, g2.2⟩, Or.inl rfl⟩
  have lat := C47_L_lattice hR (fuel + 1) (n1 - 9000) b n3 n4 (by rw [abs_le]; constructor <;> omega) hbr
    (by rw [abs_le]; constructor <;> omega) (by rw [abs_le]; constructor <;> omega)
  have hexact : Near (1 / 1000) (((n1 - 9000 : Int) : ℚ) / 100, (b : ℚ) / 100, (n3 : ℚ) / 100, (n4 : ℚ) / 100)
      (((n1 - 9000 : Int) : ℚ) / 100, (b : ℚ) / 100, (n3 : ℚ) / 100, (n4 : ℚ) / 100) := by
    refine ⟨?_, ?_, ?_, ?_⟩ <;> simp
  have hdec := (lat _ hexact).2
  rw [show n1 - 9000 + 9000 = n1 by omega] at lat hdec
  refine ⟨(n3, n4, n1, b), ?_, ?_, ?_⟩
  · unfold encodeL
    dsimp only
    rw [← e1, ← e2, ← e3, ← e4, hb]
  · obtain ⟨d1, d2, d3, d4⟩ := hdec
    rw [abs_le] at d1 d2 d3 d4
    dsimp only at d1 d2 d3 d4
    push_cast at d1
    rcases hbc with rfl | ⟨hneg, rfl⟩
    · left
      refine ⟨?_, ?_, ?_, ?_⟩ <;> rw [abs_le] <;> constructor <;> dsimp only <;> linarith
    · right
      have hq : (n2 : ℚ) ≤ -1 := by
        have : n2 ≤ -1 := by omega
        exact_mod_cast this
      push_cast at d2
      refine ⟨by linarith, ?_, ?_, ?_, ?_⟩ <;> first | (rw [abs_le]; constructor <;> dsimp only <;> linarith)
  · obtain ⟨d1, d2, d3, d4⟩ := hdec
    exact (lat (decodeL R (n3, n4, n1, b)) ⟨by linarith, by linarith, by linarith, by linarith⟩).1

/-! ### Grid + -/

theorem mul8 {R : Rounding} (hR : Good R) (g : Int) (c : ℚ) (hg : |g| ≤ 40000) (hc : 0 ≤ c) (hc' : c ≤ 1) :
    (g : ℚ) * c - 1 / 10 ^ 10 ≤ R.r8 (g * R.r8 c) ∧ R.r8 (g * R.r8 c) ≤ g * c + 1 / 10 ^ 10 := by
  have h1 : |(g : ℚ)| ≤ 40000 := by exact_mod_cast hg
  have h2 := b8 hR c 1 (by rw [abs_of_nonneg hc]; exact hc')
  have h3 : |(g : ℚ) * R.r8 c - g * c| ≤ 40000 * (1 / 10 ^ 15 + 1 / 10 ^ 20) := by
    rw [← mul_sub, abs_mul]
    apply mul_le_mul h1 _ (abs_nonneg _) (by norm_num)
    rw [abs_le]
    constructor <;> linarith [h2.1, h2.2]
  have h4 : |(g : ℚ) * c| ≤ 40000 * 1 := by
    rw [abs_mul, abs_of_nonneg hc]
    exact mul_le_mul h1 hc' hc (by norm_num)
  rw [abs_le] at h3 h4
  have h5 := b8 hR ((g : ℚ) * R.r8 c) 40001 (by
    rw [abs_le]
    constructor <;> linarith [h3.1, h3.2, h4.1, h4.2])
  constructor <;> linarith [h5.1, h5.2, h3.1, h3.2]

/-- The two parts of a coordinate, in hundredths and hundred thousandths of a degree. -/
theorem parts {R : Rounding} (hR : Good R) (A : ℚ) (h : 0 ≤ A) (h' : A ≤ 361) :
    let g := nint (R.r8 (A * 100))
    let k := nint (R.r8 (A * 100000)) - g * 1000
    (0 ≤ g ∧ g ≤ 36101) ∧ (-500 ≤ k ∧ k ≤ 500) ∧
      A - (1 / 200000 + 1 / 10 ^ 11) ≤ (g : ℚ) / 100 + k / 100000 ∧ (g : ℚ) / 100 + k / 100000 ≤ A + (1 / 200000 + 1 / 10 ^ 11) := by
  intro g k
  have a := b8 hR (A * 100) 36100 (by rw [abs_le]; constructor <;> linarith)
  have b := b8 hR (A * 100000) 36100000 (by rw [abs_le]; constructor <;> linarith)
  have ng := nint_near (R.r8 (A * 100))
  have nk := nint_near (R.r8 (A * 100000))
  have rg := nint_range (R.r8 (A * 100)) 0 36101 (by push_cast; linarith) (by push_cast; linarith)
  have hk : (k : ℚ) = nint (R.r8 (A * 100000)) - g * 1000 := by simp only [k]; push_cast; ring
  have k1 : (k : ℚ) < ((501 : Int) : ℚ) := by rw [hk]; push_cast; linarith
  have k2 : ((-501 : Int) : ℚ) < (k : ℚ) := by rw [hk]; push_cast; linarith
  have k1' : k < 501 := by exact_mod_cast k1
  have k2' : -501 < k := by exact_mod_cast k2
  refine ⟨rg, ⟨by omega, by omega⟩, ?_, ?_⟩ <;> rw [hk] <;> linarith

/-- Single precision numbers: 24 bits. -/
def Single (x : ℚ) : Prop := ∃ m e : Int, |m| < 2 ^ 24 ∧ x = m * 2 ^ e

/-- Rounding to nearest. -/
def Nearest (R : Rounding) : Prop := ∀ y, Single (R.r4 y) ∧ ∀ x, Single x → |R.r4 y - y| ≤ |x - y|

/-- What `decodePlus` computes before the rounding to single precision. -/
theorem plus_near {R : Rounding} (hR : Good R) (x1 x2 : ℚ) (h1 : |x1| ≤ 90) (h2 : |x2| ≤ 360) :
    ∃ z1 z2, decodePlus R (encodePlus R (x1, x2, 0, 0)) = (R.r4 z1, R.r4 z2, 0, 0) ∧
      |z1 - x1| ≤ 1 / 200000 + 1 / 10 ^ 9 ∧ |z2 - turn x2| ≤ 1 / 200000 + 1 / 10 ^ 9 := by
  rw [abs_le] at h1 h2
  have a1 := b8 hR (x1 + 100) 190 (by rw [abs_le]; constructor <;> linarith)
  obtain ⟨A, hA⟩ : ∃ A, A = R.r8 (x1 + 100) := ⟨_, rfl⟩
  rw [← hA] at a1
  obtain ⟨B, hB⟩ : ∃ B, B = if x2 < 0 then R.r8 (x2 + 360) else x2 := ⟨_, rfl⟩
  have hBr : 0 ≤ B ∧ B ≤ 361 ∧ turn x2 - 1 / 10 ^ 11 ≤ B ∧ B ≤ turn x2 + 1 / 10 ^ 11 := by
    rw [hB]
    unfold turn
    by_cases h : x2 < 0
    · rw [if_pos h, if_pos h]
      have b := b8 hR (x2 + 360) 360 (by rw [abs_le]; constructor <;> linarith)
      exact ⟨hR.p8 _ (by linarith), by linarith, by linarith, by linarith⟩
    · rw [if_neg h, if_neg h]
      rw [not_lt] at h
      exact ⟨h, by linarith, by linarith, by linarith⟩
  obtain ⟨rg, rk, lo, hi⟩ := parts hR A (by linarith) (by linarith)
  obtain ⟨rg', rk', lo', hi'⟩ := parts hR B hBr.1 hBr.2.1
  have e : encodePlus R (x1, x2, 0, 0) = (nint (R.r8 (A * 100000)) - nint (R.r8 (A * 100)) * 1000 + 1000,
      nint (R.r8 (B * 100000)) - nint (R.r8 (B * 100)) * 1000 + 1000, nint (R.r8 (A * 100)), nint (R.r8 (B * 100))) := by
    rw [hA, hB]
    rfl
  rw [e]
  obtain ⟨g, hg⟩ : ∃ g, g = nint (R.r8 (A * 100)) := ⟨_, rfl⟩
  obtain ⟨k, hk⟩ : ∃ k, k = nint (R.r8 (A * 100000)) - g * 1000 := ⟨_, rfl⟩
  obtain ⟨g', hg'⟩ : ∃ g, g = nint (R.r8 (B * 100)) := ⟨_, rfl⟩
  obtain ⟨k', hk'⟩ : ∃ k, k = nint (R.r8 (B * 100000)) - g' * 1000 := ⟨_, rfl⟩
  rw [← hg] at rg rk lo hi; rw [← hk] at rk lo hi
  rw [← hg'] at rg' rk' lo' hi'; rw [← hk'] at rk' lo' hi'
  rw [← hg, ← hk, ← hg', ← hk']
  refine ⟨R.r8 (R.r8 (R.r8 ((g : ℚ) * R.r8 (1 / 100)) - 100) + R.r8 ((k : ℚ) * R.r8 (1 / 100000))),
    R.r8 (R.r8 ((g' : ℚ) * R.r8 (1 / 100)) + R.r8 ((k' : ℚ) * R.r8 (1 / 100000))), ?_, ?_, ?_⟩
  · unfold decodePlus
    dsimp only
    rw [if_pos (by omega), if_pos (by omega), show k + 1000 - 1000 = k by omega, show k' + 1000 - 1000 = k' by omega]
  · have c1 := mul8 hR g (1 / 100) (by rw [abs_le]; constructor <;> omega) (by norm_num) (by norm_num)
    have c2 := mul8 hR k (1 / 100000) (by rw [abs_le]; constructor <;> omega) (by norm_num) (by norm_num)
    have k1 : (k : ℚ) ≤ 500 := by exact_mod_cast rk.2
    have k2 : (-500 : ℚ) ≤ k := by exact_mod_cast rk.1
    have c3 := b8 hR (R.r8 ((g : ℚ) * R.r8 (1 / 100)) - 100) 1000 (by rw [abs_le]; constructor <;> linarith)
    have c4 := b8 hR (R.r8 (R.r8 ((g : ℚ) * R.r8 (1 / 100)) - 100) + R.r8 ((k : ℚ) * R.r8 (1 / 100000))) 1100
      (by rw [abs_le]; constructor <;> linarith)
    rw [abs_le]
    constructor <;> linarith
  · have c1 := mul8 hR g' (1 / 100) (by rw [abs_le]; constructor <;> omega) (by norm_num) (by norm_num)
    have c2 := mul8 hR k' (1 / 100000) (by rw [abs_le]; constructor <;> omega) (by norm_num) (by norm_num)
    have k1 : (k' : ℚ) ≤ 500 := by exact_mod_cast rk'.2
    have k2 : (-500 : ℚ) ≤ k' := by exact_mod_cast rk'.1
    have c4 := b8 hR (R.r8 ((g' : ℚ) * R.r8 (1 / 100)) + R.r8 ((k' : ℚ) * R.r8 (1 / 100000))) 1100
      (by rw [abs_le]; constructor <;> linarith)
    rw [abs_le]
    constructor <;> linarith

theorem single_multiple (x : ℚ) (h : Single x) (hx : 128 ≤ x) : ∃ n : Int, x = n / 2 ^ 16 := by
  obtain ⟨m, e, hm, he⟩ := h
  have hm' : |(m : ℚ)| < 2 ^ 24 := by exact_mod_cast hm
  have he16 : -16 ≤ e := by
    by_contra hc
    have : e ≤ -17 := by omega
    have hp : (2 : ℚ) ^ e ≤ 2 ^ (-17 : Int) := zpow_le_zpow_right₀ (by norm_num) this
    have hpos : (0 : ℚ) < 2 ^ e := zpow_pos (by norm_num) e
    rw [abs_lt] at hm'
    have : x < 2 ^ 24 * 2 ^ (-17 : Int) := by
      rw [he]
      calc (m : ℚ) * 2 ^ e < 2 ^ 24 * 2 ^ e := mul_lt_mul_of_pos_right hm'.2 hpos
        _ ≤ 2 ^ 24 * 2 ^ (-17 : Int) := mul_le_mul_of_nonneg_left hp (by norm_num)
    norm_num at this
    linarith
  obtain ⟨k, hk⟩ : ∃ k : Nat, e = -16 + k := ⟨(e + 16).toNat, by omega⟩
  refine ⟨m * 2 ^ k, ?_⟩
  rw [he, hk, zpow_add₀ (by norm_num), zpow_natCast]
  push_cast
  rw [show (2 : ℚ) ^ (-16 : Int) = 1 / 2 ^ 16 by norm_num]
  ring

/-- C47 for grid +: the point comes back within one hundred thousandth of a degree. -/
theorem C47_plus {R : Rounding} (hR : Good R) (hN : Nearest R) (x1 x2 : ℚ) (h1 : |x1| ≤ 90) (h2 : |x2| ≤ 360)
    (s1 : Single x1) (s2 : Single (turn x2)) :
    Near (1 / 100000 + 1 / 10 ^ 8) (decodePlus R (encodePlus R (x1, x2, 0, 0))) (x1, turn x2, 0, 0) := by
  obtain ⟨z1, z2, e, n1, n2⟩ := plus_near hR x1 x2 h1 h2
  rw [e]
  have m1 := (hN z1).2 x1 s1
  have m2 := (hN z2).2 (turn x2) s2
  rw [abs_sub_comm x1] at m1
  rw [abs_sub_comm (turn x2)] at m2
  have t1 := abs_sub_le (R.r4 z1) z1 x1
  have t2 := abs_sub_le (R.r4 z2) z2 (turn x2)
  refine ⟨?_, ?_, ?_, ?_⟩ <;> dsimp only
  · linarith
  · linarith
  · simp; norm_num
  · simp; norm_num

/-- Longitudes from 129 degrees east come back bit for bit. -/
theorem C47_plus_exact {R : Rounding} (hR : Good R) (hN : Nearest R) (x1 x2 : ℚ) (h1 : |x1| ≤ 90) (h2 : 129 ≤ x2)
    (h2' : x2 ≤ 360) (s2 : Single x2) :
    (decodePlus R (encodePlus R (x1, x2, 0, 0))).2.1 = x2 := by
  obtain ⟨z1, z2, e, -, n2⟩ := plus_near hR x1 x2 h1 (by rw [abs_le]; constructor <;> linarith)
  rw [e]
  have ht : turn x2 = x2 := if_neg (by linarith)
  rw [ht] at n2
  have m2 := (hN z2).2 x2 s2
  rw [abs_sub_comm x2] at m2
  have t2 := abs_sub_le (R.r4 z2) z2 x2
  have hd : |R.r4 z2 - x2| ≤ 1 / 100000 + 1 / 10 ^ 8 := by linarith
  have hd' := hd
  rw [abs_le] at hd'
  obtain ⟨n, hn⟩ := single_multiple (R.r4 z2) (hN z2).1 (by linarith)
  obtain ⟨m, hm⟩ := single_multiple x2 s2 (by linarith)
  dsimp only
  rw [hn, hm] at hd ⊢
  have : |((n - m : Int) : ℚ)| < 1 := by
    push_cast
    rw [← sub_div, abs_div, abs_of_pos (by norm_num : (0 : ℚ) < 2 ^ 16), div_le_iff₀ (by norm_num)] at hd
    have : ((1 : ℚ) / 100000 + 1 / 10 ^ 8) * 2 ^ 16 < 1 := by norm_num
    linarith
  have : |n - m| < 1 := by exact_mod_cast this
  have : n = m := by
    rw [abs_lt] at this
    omega
  rw [this]

/-! ### Rounding to nearest exists -/

/-- Rounding to the nearest number of `p` bits. -/
def nearest (p : Nat) (y : ℚ) : ℚ :=
  let u : ℚ := 2 ^ (Int.log 2 |y| - (p - 1))
  round (y / u) * u

theorem nearest_spec (p : Nat) (hp : 1 ≤ p) (y : ℚ) (hy : y ≠ 0) :
    ∃ u : ℚ, ∃ e : Int, u = 2 ^ e ∧ 0 < u ∧ 2 ^ (p - 1) * u ≤ |y| ∧ |y| < 2 ^ p * u ∧ nearest p y = round (y / u) * u := by
  have hab : 0 < |y| := abs_pos.2 hy
  refine ⟨2 ^ (Int.log 2 |y| - (p - 1)), _, rfl, zpow_pos (by norm_num) _, ?_, ?_, rfl⟩
  · have := Int.zpow_log_le_self (b := 2) (by norm_num) hab
    have e : (2 : ℚ) ^ (p - 1) * 2 ^ (Int.log 2 |y| - (p - 1)) = 2 ^ (Int.log 2 |y|) := by
      rw [← zpow_natCast, ← zpow_add₀ (by norm_num)]
      congr 1
      omega
    rw [e]
    exact_mod_cast this
  · have := Int.lt_zpow_succ_log_self (b := 2) (by norm_num) |y|
    have e : (2 : ℚ) ^ p * 2 ^ (Int.log 2 |y| - (p - 1)) = 2 ^ (Int.log 2 |y| + 1) := by
      rw [← zpow_natCast, ← zpow_add₀ (by norm_num)]
      congr 1
      omega
    rw [e]
    exact_mod_cast this

theorem nearest_zero (p : Nat) : nearest p 0 = 0 := by
  unfold nearest
  simp

theorem nearest_err (p : Nat) (hp : 1 ≤ p) (y : ℚ) : |nearest p y - y| ≤ |y| / 2 ^ p := by
  by_cases hy : y = 0
  · rw [hy, nearest_zero]; simp
  obtain ⟨u, e, -, hu, h1, h2, h3⟩ := nearest_spec p hp y hy
  rw [h3]
  have hr := abs_sub_round (y / u)
  have : |round (y / u) * u - y| = |y / u - round (y / u)| * u := by
    rw [← abs_of_pos hu, ← abs_mul, abs_of_pos hu, sub_mul, div_mul_cancel₀ _ (ne_of_gt hu), abs_sub_comm]
  rw [this, le_div_iff₀ (by positivity)]
  have hpw : (2 : ℚ) ^ p = 2 * 2 ^ (p - 1) := by
    conv_lhs => rw [show p = p - 1 + 1 by omega, pow_succ]
    ring
  calc |y / u - round (y / u)| * u * 2 ^ p ≤ 1 / 2 * u * 2 ^ p := by gcongr
    _ = 2 ^ (p - 1) * u := by rw [hpw]; ring
    _ ≤ |y| := h1

theorem nearest_best (p : Nat) (hp : 1 ≤ p) (y : ℚ) (m f : Int) (hm : |m| < 2 ^ p) :
    |nearest p y - y| ≤ |(m : ℚ) * 2 ^ f - y| := by
  by_cases hy : y = 0
  · rw [hy, nearest_zero, sub_zero, abs_zero]; exact abs_nonneg _
  obtain ⟨u, e, he, hu, h1, h2, h3⟩ := nearest_spec p hp y hy
  have hmul : ∀ n : Int, |nearest p y - y| ≤ |(n : ℚ) * u - y| := by
    intro n
    rw [h3]
    have hr := round_le (y / u) n
    have t : ∀ n : Int, |(n : ℚ) * u - y| = |y / u - n| * u := by
      intro n
      rw [← abs_of_pos hu, ← abs_mul, abs_of_pos hu, sub_mul, div_mul_cancel₀ _ (ne_of_gt hu), abs_sub_comm]
    rw [t, t]
    exact mul_le_mul_of_nonneg_right hr (le_of_lt hu)
  by_cases hf : e ≤ f
  · obtain ⟨k, hk⟩ : ∃ k : Nat, f = e + k := ⟨(f - e).toNat, by omega⟩
    have := hmul (m * 2 ^ k)
    rw [hk, zpow_add₀ (by norm_num), zpow_natCast, ← he]
    push_cast at this
    rw [show (m : ℚ) * (u * 2 ^ k) = m * 2 ^ k * u by ring]
    exact this
  · have hpf : (2 : ℚ) ^ f ≤ u / 2 := by
      rw [he]
      have : (2 : ℚ) ^ f ≤ 2 ^ (e - 1) := zpow_le_zpow_right₀ (by norm_num) (by omega)
      rw [zpow_sub₀ (by norm_num)] at this
      simpa using this
    have hm' : |(m : ℚ)| < 2 ^ p := by exact_mod_cast hm
    have hpos : (0 : ℚ) < 2 ^ f := zpow_pos (by norm_num) f
    have hpw : (2 : ℚ) ^ p = 2 * 2 ^ (p - 1) := by
      conv_lhs => rw [show p = p - 1 + 1 by omega, pow_succ]
      ring
    have hx : |(m : ℚ) * 2 ^ f| ≤ 2 ^ (p - 1) * u := by
      rw [abs_mul, abs_of_pos hpos]
      calc |(m : ℚ)| * 2 ^ f ≤ 2 ^ p * (u / 2) := mul_le_mul (le_of_lt hm') hpf (le_of_lt hpos) (by positivity)
        _ = 2 ^ (p - 1) * u := by rw [hpw]; ring
    have ht := abs_sub_abs_le_abs_sub y ((m : ℚ) * 2 ^ f)
    rw [abs_sub_comm] at ht
    have hb : |nearest p y - y| ≤ |y| - 2 ^ (p - 1) * u := by
      rcases lt_or_gt_of_ne hy with hneg | hpos'
      · have := hmul (-(2 ^ (p - 1)))
        push_cast at this
        rw [abs_of_neg hneg] at h1 ⊢
        rw [abs_of_nonneg (show 0 ≤ -2 ^ (p - 1) * u - y by linarith)] at this
        linarith
      · have := hmul (2 ^ (p - 1))
        push_cast at this
        rw [abs_of_pos hpos'] at h1 ⊢
        rw [abs_of_nonpos (show 2 ^ (p - 1) * u - y ≤ 0 by linarith)] at this
        linarith
    linarith

theorem nearest_form (p : Nat) (hp : 1 ≤ p) (y : ℚ) : ∃ m e : Int, |m| < 2 ^ p ∧ nearest p y = m * 2 ^ e := by
  by_cases hy : y = 0
  · exact ⟨0, 0, by simp, by rw [hy, nearest_zero]; simp⟩
  obtain ⟨u, e, he, hu, h1, h2, h3⟩ := nearest_spec p hp y hy
  have hlt : |y / u| < 2 ^ p := by
    rw [abs_div, abs_of_pos hu, div_lt_iff₀ hu]
    exact h2
  rw [abs_lt] at hlt
  have hr := abs_sub_round (y / u)
  rw [abs_le] at hr
  have hb : |round (y / u)| ≤ 2 ^ p := by
    have a1 : ((round (y / u) : Int) : ℚ) < ((2 ^ p + 1 : Int) : ℚ) := by push_cast; linarith
    have a2 : ((-(2 ^ p) - 1 : Int) : ℚ) < ((round (y / u) : Int) : ℚ) := by push_cast; linarith
    have a1' : round (y / u) < 2 ^ p + 1 := by exact_mod_cast a1
    have a2' : -(2 ^ p) - 1 < round (y / u) := by exact_mod_cast a2
    rw [abs_le]
    constructor <;> omega
  have hone : (1 : Int) < 2 ^ p := by
    obtain ⟨k, rfl⟩ : ∃ k, p = k + 1 := ⟨p - 1, by omega⟩
    have : (0 : Int) < 2 ^ k := by positivity
    rw [pow_succ]
    omega
  rcases lt_or_eq_of_le hb with h | h
  · exact ⟨round (y / u), e, h, by rw [h3, he]⟩
  · rcases abs_eq (by positivity : (0 : Int) ≤ 2 ^ p) |>.1 h with h' | h'
    · refine ⟨1, e + p, by simpa using hone, ?_⟩
      rw [h3, h', he, zpow_add₀ (by norm_num), zpow_natCast]
      push_cast
      ring
    · refine ⟨-1, e + p, by simpa using hone, ?_⟩
      rw [h3, h', he, zpow_add₀ (by norm_num), zpow_natCast]
      push_cast
      ring

theorem nearest_int (p : Nat) (hp : 1 ≤ p) (n : Int) (h : |n| ≤ 2 ^ p) : nearest p n = n := by
  have key : ∀ m f : Int, |m| < 2 ^ p → (n : ℚ) = m * 2 ^ f → nearest p n = n := by
    intro m f hm e
    have := nearest_best p hp n m f hm
    rw [← e, sub_self, abs_zero] at this
    exact sub_eq_zero.1 (abs_eq_zero.1 (le_antisymm this (abs_nonneg _)))
  have hone : (1 : Int) < 2 ^ p := by
    obtain ⟨k, rfl⟩ : ∃ k, p = k + 1 := ⟨p - 1, by omega⟩
    have : (0 : Int) < 2 ^ k := by positivity
    rw [pow_succ]
    omega
  rcases lt_or_eq_of_le h with h | h
  · exact key n 0 h (by simp)
  · rcases abs_eq (by positivity : (0 : Int) ≤ 2 ^ p) |>.1 h with h' | h'
    · exact key 1 p (by simpa using hone) (by rw [h', zpow_natCast]; push_cast; ring)
    · exact key (-1) p (by simpa using hone) (by rw [h', zpow_natCast]; push_cast; ring)

theorem nearest_nonneg (p : Nat) (y : ℚ) (h : 0 ≤ y) : 0 ≤ nearest p y := by
  unfold nearest
  dsimp only
  have hu : (0 : ℚ) < 2 ^ (Int.log 2 |y| - (p - 1)) := zpow_pos (by norm_num) _
  apply mul_nonneg _ (le_of_lt hu)
  have : 0 ≤ round (y / 2 ^ (Int.log 2 |y| - (p - 1))) := by
    rw [round_eq]
    apply Int.floor_nonneg.2
    positivity
  exact_mod_cast this

/-- Rounding to nearest in single and double precision (with unlimited exponents) meets all hypotheses. -/
theorem good_nearest : Good ⟨nearest 24, nearest 53⟩ ∧ Nearest ⟨nearest 24, nearest 53⟩ := by
  refine ⟨⟨?_, ?_, ?_, ?_, ?_, ?_⟩, ?_⟩
  · intro x
    have := nearest_err 24 (by norm_num) x
    have : (0 : ℚ) < 1 / 2 ^ 100 := by positivity
    dsimp only
    linarith
  · intro x
    have := nearest_err 53 (by norm_num) x
    have : (0 : ℚ) < 1 / 2 ^ 100 := by positivity
    dsimp only
    linarith
  · exact fun n h => nearest_int 24 (by norm_num) n h
  · exact fun n h => nearest_int 53 (by norm_num) n h
  · exact fun x h => nearest_nonneg 24 x h
  · exact fun x h => nearest_nonneg 53 x h
  · intro y
    refine ⟨nearest_form 24 (by norm_num) y, ?_⟩
    rintro x ⟨m, f, hm, rfl⟩
    exact nearest_best 24 (by norm_num) y m f hm

/-- A point in single precision: 45.5 north, 73.75 west. -/
example : Near (1 / 100000 + 1 / 10 ^ 8)
    (decodePlus ⟨nearest 24, nearest 53⟩ (encodePlus ⟨nearest 24, nearest 53⟩ (91 / 2, -295 / 4, 0, 0))) (91 / 2, 1145 / 4, 0, 0) := by
  have := C47_plus good_nearest.1 good_nearest.2 (91 / 2) (-295 / 4) (by rw [abs_of_pos] <;> norm_num)
    (by rw [abs_of_neg] <;> norm_num) ⟨91, -1, by norm_num, by norm_num⟩
    ⟨1145, -2, by norm_num, by unfold turn; norm_num⟩
  rw [show turn (-295 / 4) = 1145 / 4 by unfold turn; norm_num] at this
  exact this

/-- A rotated grid with the last longitude in the wrapped part of the descriptor. -/
example : encodeE ⟨id, id⟩ 2 (-90, 360, -45 / 2, -1 / 4) = some (0, 1575, 6464, 57561) ∧
    decodeE ⟨id, id⟩ (0, 1575, 6464, 57561) = (-90, 360, -45 / 2, 1439 / 4) := by decide +kernel

example : encodeL ⟨id, id⟩ 2 (-1234 / 100, -25 / 100, 25 / 100, 1 / 2) = some (25, 50, 7766, 35975) := by decide +kernel

/-! ### Other grids -/

/-- Grids A, B and G: the flags come back. -/
theorem C47_A {R : Rounding} (hR : Good R) (g1 g2 : Int) (h1 : 0 ≤ g1 ∧ g1 ≤ 2) (h2 : 0 ≤ g2 ∧ g2 ≤ 1) :
    encodeA (decodeA R (g1, g2, 0, 0)) = (g1, g2, 0, 0) ∧
      decodeA R (encodeA ((g1 : ℚ), (g2 : ℚ), 0, 0)) = ((g1 : ℚ), (g2 : ℚ), 0, 0) := by
  have e1 : R.r4 (g1 : ℚ) = g1 := hR.i4 g1 (by rw [abs_le]; constructor <;> omega)
  have e2 : R.r4 (g2 : ℚ) = g2 := hR.i4 g2 (by rw [abs_le]; constructor <;> omega)
  have t : ∀ g : Int, 0 ≤ g → trunc (g : ℚ) = g := by
    intro g hg
    unfold trunc
    rw [if_pos (by exact_mod_cast hg), Int.floor_intCast]
  unfold encodeA decodeA
  dsimp only
  rw [t g1 h1.1, t g2 h2.1, e1, e2, t g1 h1.1, t g2 h2.1]
  exact ⟨rfl, rfl⟩

/-- Grid H: descriptors decode to parameters that give the same descriptors. -/
theorem C47_H {R : Rounding} (hR : Good R) (fuel : Nat) (g1 g2 g3 g4 : Int) (h1 : 0 ≤ g1 ∧ g1 < 1800)
    (h2 : 0 ≤ g2 ∧ g2 ≤ 20000) (h3 : |g3| ≤ 40000) (h4 : 0 ≤ g4 ∧ g4 ≤ 18000) :
    encodeH R (fuel + 1) (decodeH R (g1, g2, g3, g4)) = some (g1, g2, g3, g4) := by
  have f1 : (0 : ℚ) ≤ g1 ∧ (g1 : ℚ) ≤ 1800 := ⟨by exact_mod_cast h1.1, by exact_mod_cast (le_of_lt h1.2)⟩
  have f2 : (0 : ℚ) ≤ g2 ∧ (g2 : ℚ) ≤ 20000 := ⟨by exact_mod_cast h2.1, by exact_mod_cast h2.2⟩
  have f4 : (0 : ℚ) ≤ g4 ∧ (g4 : ℚ) ≤ 18000 := ⟨by exact_mod_cast h4.1, by exact_mod_cast h4.2⟩
  have e3 : R.r4 (g3 : ℚ) = g3 := hR.i4 g3 (by rw [abs_le] at h3 ⊢; constructor <;> omega)
  have ew : wrap (500 * g2) = 500 * g2 := wrap_small _ (by omega) (by omega)
  have e2 : R.r4 ((500 * g2 : Int) : ℚ) = 500 * g2 := by
    rw [hR.i4 _ (by rw [abs_le]; constructor <;> omega)]
    push_cast
    rfl
  have a1 := mul4 hR g1 (2 / 10) (by rw [abs_le]; constructor <;> omega) (by norm_num) (by norm_num)
  have a4 := lat4 hR g4 (by rw [abs_le]; constructor <;> omega)
  rw [mul_comm (R.r4 (g4 : ℚ))] at a4
  unfold encodeH decodeH
  dsimp only
  rw [e3, ew, e2]
  obtain ⟨y1, hy1⟩ : ∃ y, y = R.r4 (R.r4 g1 * R.r4 (2 / 10)) := ⟨_, rfl⟩
  obtain ⟨y4, hy4⟩ : ∃ y, y = R.r4 (R.r4 (R.r4 (1 / 100) * R.r4 g4) - 90) := ⟨_, rfl⟩
  rw [← hy1] at a1 ⊢
  rw [← hy4] at a4 ⊢
  have b1 := b4 hR (5 * y1) 1900 (by rw [abs_le]; constructor <;> linarith)
  have n1 : nint (R.r4 (5 * y1)) = g1 := by apply nint_eq <;> linarith
  have c := b4 hR (2 / 1000) (2 / 1000) (by rw [abs_of_pos] <;> norm_num)
  obtain ⟨k, hk⟩ : ∃ k, k = R.r4 (2 / 1000) := ⟨_, rfl⟩
  rw [← hk] at c ⊢
  have hprod : |k * (500 * g2) - g2| ≤ 1 / 100 := by
    have : k * (500 * g2) - g2 = (k - 2 / 1000) * (500 * g2) := by ring
    rw [this, abs_mul, abs_of_nonneg (show (0 : ℚ) ≤ 500 * g2 by linarith [f2.1])]
    have h' : |k - 2 / 1000| ≤ 1 / 10 ^ 9 := by rw [abs_le]; constructor <;> linarith
    calc |k - 2 / 1000| * (500 * (g2 : ℚ)) ≤ 1 / 10 ^ 9 * (500 * 20000) :=
          mul_le_mul h' (by linarith [f2.2]) (by linarith [f2.1]) (by norm_num)
      _ ≤ 1 / 100 := by norm_num
  rw [abs_le] at hprod
  have b2 := b4 hR (k * (500 * g2)) 20001 (by rw [abs_le]; constructor <;> linarith)
  have n2 : nint (R.r4 (k * (500 * g2))) = g2 := by apply nint_eq <;> linarith
  have n3 : nint (g3 : ℚ) = g3 := by apply nint_eq <;> linarith
  have b5 := cent90_near hR y4 (by rw [abs_le]; constructor <;> linarith)
  rw [mul_comm (R.r4 (90 + y4))] at b5
  have n4 : nint (R.r4 (100 * R.r4 (90 + y4))) = g4 := by apply nint_eq <;> linarith
  rw [n1, n2, n3, n4, addUp_pos _ _ _ h1.1]

/-- Grids N and S, first style: descriptors decode to parameters that give the same descriptors. -/
theorem C47_N {R : Rounding} (hR : Good R) (fuel : Nat) (g1 g2 g3 g4 : Int) (h1 : 0 ≤ g1 ∧ g1 ≤ 2047)
    (h2 : 0 ≤ g2 ∧ g2 ≤ 2047) (h3 : 0 ≤ g3 ∧ g3 ≤ 36000) (h4 : 0 ≤ g4 ∧ g4 ≤ 32000) :
    ∃ x, decodeN R (g1, g2, g3, g4) = some x ∧ encodeN R (fuel + 1) x = some (g1, g2, g3, g4) := by
  have f1 : (0 : ℚ) ≤ g1 ∧ (g1 : ℚ) ≤ 2047 := ⟨by exact_mod_cast h1.1, by exact_mod_cast h1.2⟩
  have f2 : (0 : ℚ) ≤ g2 ∧ (g2 : ℚ) ≤ 2047 := ⟨by exact_mod_cast h2.1, by exact_mod_cast h2.2⟩
  have f3 : (0 : ℚ) ≤ g3 ∧ (g3 : ℚ) ≤ 36000 := ⟨by exact_mod_cast h3.1, by exact_mod_cast h3.2⟩
  have f4 : (0 : ℚ) ≤ g4 ∧ (g4 : ℚ) ≤ 32000 := ⟨by exact_mod_cast h4.1, by exact_mod_cast h4.2⟩
  refine ⟨_, by unfold decodeN; dsimp only; rw [if_pos (by omega)], ?_⟩
  have a1 := mul4 hR g1 (1 / 10) (by rw [abs_le]; constructor <;> omega) (by norm_num) (by norm_num)
  have a2 := mul4 hR g2 (1 / 10) (by rw [abs_le]; constructor <;> omega) (by norm_num) (by norm_num)
  have a3 := hund4 hR g3 (by rw [abs_le]; constructor <;> omega)
  have e4 : R.r4 (R.r4 (g4 : ℚ) * 100) = g4 * 100 := by
    rw [hR.i4 g4 (by rw [abs_le]; constructor <;> omega)]
    have := hR.i4 (g4 * 100) (by rw [abs_le]; constructor <;> omega)
    push_cast at this
    exact this
  unfold encodeN
  dsimp only
  rw [e4]
  obtain ⟨y1, hy1⟩ : ∃ y, y = R.r4 (R.r4 g1 * R.r4 (1 / 10)) := ⟨_, rfl⟩
  obtain ⟨y2, hy2⟩ : ∃ y, y = R.r4 (R.r4 g2 * R.r4 (1 / 10)) := ⟨_, rfl⟩
  obtain ⟨y3, hy3⟩ : ∃ y, y = R.r4 (R.r4 g3 * R.r4 (1 / 100)) := ⟨_, rfl⟩
  rw [← hy1] at a1 ⊢; rw [← hy2] at a2 ⊢; rw [← hy3] at a3 ⊢
  have b1 := b4 hR (y1 * 10) 2100 (by rw [abs_le]; constructor <;> linarith)
  have b2 := b4 hR (y2 * 10) 2100 (by rw [abs_le]; constructor <;> linarith)
  have b3 := cent_near hR y3 (by rw [abs_le]; constructor <;> linarith)
  have n1 : nint (R.r4 (y1 * 10)) = g1 := by apply nint_eq <;> linarith
  have n2 : nint (R.r4 (y2 * 10)) = g2 := by apply nint_eq <;> linarith
  have n3 : nint (R.r4 (y3 * 100)) = g3 := by apply nint_eq <;> linarith
  have c := b4 hR (1 / 100) (1 / 100) (by rw [abs_of_pos] <;> norm_num)
  obtain ⟨k, hk⟩ : ∃ k, k = R.r4 (1 / 100) := ⟨_, rfl⟩
  rw [← hk] at c ⊢
  have hprod : |g4 * 100 * k - g4| ≤ 1 / 100 := by
    have : g4 * 100 * k - g4 = (k - 1 / 100) * (100 * g4) := by ring
    rw [this, abs_mul, abs_of_nonneg (show (0 : ℚ) ≤ 100 * g4 by linarith [f4.1])]
    have h' : |k - 1 / 100| ≤ 1 / 10 ^ 9 := by rw [abs_le]; constructor <;> linarith
    calc |k - 1 / 100| * (100 * (g4 : ℚ)) ≤ 1 / 10 ^ 9 * (100 * 32000) :=
          mul_le_mul h' (by linarith [f4.2]) (by linarith [f4.1]) (by norm_num)
      _ ≤ 1 / 100 := by norm_num
  rw [abs_le] at hprod
  have b5 := b4 hR (g4 * 100 * k) 32001 (by rw [abs_le]; constructor <;> linarith)
  have n4 : nint (R.r4 (g4 * 100 * k)) = g4 := by apply nint_eq <;> linarith
  rw [n1, n2, n3, n4, addUp_pos _ _ _ h3.1]
  dsimp only
  rw [if_neg (by omega)]

/-- Quotient of a constant by an integer, and back. -/
theorem back {R : Rounding} (hR : Good R) (c : ℚ) (g : Int) (hc : 100 ≤ c) (hc' : c ≤ 400) (h : 1 ≤ g) (h' : g ≤ 100000) :
    nint (R.r4 (c / R.r4 (c / R.r4 g))) = g := by
  have f1 : (1 : ℚ) ≤ g := by exact_mod_cast h
  have f2 : (g : ℚ) ≤ 100000 := by exact_mod_cast h'
  have gp : (0 : ℚ) < g := by linarith
  rw [hR.i4 g (by rw [abs_le]; constructor <;> omega)]
  have hq : 0 < c / g := by positivity
  have a := b4 hR (c / g) (c / g) (by rw [abs_of_pos hq])
  obtain ⟨y, hy⟩ : ∃ y, y = R.r4 (c / g) := ⟨_, rfl⟩
  rw [← hy] at a ⊢
  have hmin : 1 / 1000 ≤ c / g := by
    rw [le_div_iff₀ gp]; linarith
  have a1 : c / g * (1 - 1 / 10 ^ 7) ≤ y := by linarith
  have a2 : y ≤ c / g * (1 + 1 / 10 ^ 7) := by linarith
  have yp : 0 < y := by linarith
  have hcg : c / g * g = c := div_mul_cancel₀ _ (ne_of_gt gp)
  have b1 : c / y ≤ g * (1 + 2 / 10 ^ 7) := by
    rw [div_le_iff₀ yp]
    have : (g : ℚ) * (1 + 2 / 10 ^ 7) * (c / g * (1 - 1 / 10 ^ 7)) ≤ g * (1 + 2 / 10 ^ 7) * y :=
      mul_le_mul_of_nonneg_left a1 (by positivity)
    have e : (g : ℚ) * (1 + 2 / 10 ^ 7) * (c / g * (1 - 1 / 10 ^ 7)) = c * ((1 + 2 / 10 ^ 7) * (1 - 1 / 10 ^ 7)) := by
      calc _ = (c / g * g) * ((1 + 2 / 10 ^ 7) * (1 - 1 / 10 ^ 7)) := by ring
        _ = _ := by rw [hcg]
    rw [e] at this
    have : c ≤ c * ((1 + 2 / 10 ^ 7) * (1 - 1 / 10 ^ 7)) := by
      have : (1 : ℚ) ≤ (1 + 2 / 10 ^ 7) * (1 - 1 / 10 ^ 7) := by norm_num
      nlinarith
    linarith
  have b2 : g * (1 - 2 / 10 ^ 7) ≤ c / y := by
    rw [le_div_iff₀ yp]
    have : (g : ℚ) * (1 - 2 / 10 ^ 7) * y ≤ g * (1 - 2 / 10 ^ 7) * (c / g * (1 + 1 / 10 ^ 7)) :=
      mul_le_mul_of_nonneg_left a2 (mul_nonneg (le_of_lt gp) (by norm_num))
    have e : (g : ℚ) * (1 - 2 / 10 ^ 7) * (c / g * (1 + 1 / 10 ^ 7)) = c * ((1 - 2 / 10 ^ 7) * (1 + 1 / 10 ^ 7)) := by
      calc _ = (c / g * g) * ((1 - 2 / 10 ^ 7) * (1 + 1 / 10 ^ 7)) := by ring
        _ = _ := by rw [hcg]
    rw [e] at this
    have : c * ((1 - 2 / 10 ^ 7) * (1 + 1 / 10 ^ 7)) ≤ c := by
      have : ((1 : ℚ) - 2 / 10 ^ 7) * (1 + 1 / 10 ^ 7) ≤ 1 := by norm_num
      nlinarith
    linarith
  have b := b4 hR (c / y) 100001 (by rw [abs_le]; constructor <;> linarith)
  apply nint_eq <;> linarith

/-- Grid C: descriptors decode to parameters that give the same descriptors. -/
theorem C47_C {R : Rounding} (hR : Good R) (fuel : Nat) (g1 g2 g3 g4 : Int) (h1 : 1 ≤ g1 ∧ g1 ≤ 100000)
    (h2 : 1 ≤ g2 ∧ g2 ≤ 100000) (h3 : 0 ≤ g3 ∧ g3 ≤ 18000) (h4 : 0 ≤ g4 ∧ g4 ≤ 36000) :
    encodeC R (fuel + 1) (decodeC R (g1, g2, g3, g4)) = some (g1, g2, g3, g4) := by
  have f3 : (0 : ℚ) ≤ g3 ∧ (g3 : ℚ) ≤ 18000 := ⟨by exact_mod_cast h3.1, by exact_mod_cast h3.2⟩
  have f4 : (0 : ℚ) ≤ g4 ∧ (g4 : ℚ) ≤ 36000 := ⟨by exact_mod_cast h4.1, by exact_mod_cast h4.2⟩
  have a3 := lat4 hR g3 (by rw [abs_le]; constructor <;> omega)
  have a4 := hund4 hR g4 (by rw [abs_le]; constructor <;> omega)
  unfold encodeC decodeC
  dsimp only
  rw [back hR 180 g1 (by norm_num) (by norm_num) h1.1 h1.2, back hR 360 g2 (by norm_num) (by norm_num) h2.1 h2.2]
  have b3 := cent90_near hR _ (show |R.r4 (R.r4 (R.r4 (g3 : ℚ) * R.r4 (1 / 100)) - 90)| ≤ 500 by
    rw [abs_le]; constructor <;> linarith)
  have b4' := cent_near hR _ (show |R.r4 (R.r4 (g4 : ℚ) * R.r4 (1 / 100))| ≤ 500 by rw [abs_le]; constructor <;> linarith)
  have n3 : nint (R.r4 (R.r4 (90 + R.r4 (R.r4 (R.r4 (g3 : ℚ) * R.r4 (1 / 100)) - 90)) * 100)) = g3 := by
    apply nint_eq <;> linarith
  have n4 : nint (R.r4 (R.r4 (R.r4 (g4 : ℚ) * R.r4 (1 / 100)) * 100)) = g4 := by apply nint_eq <;> linarith
  rw [n3, n4, addUp_pos _ _ _ h4.1]

/-- A longitude so negative that adding a turn does not change it keeps loop 500 running for ever. -/
theorem C47_loop_witness (R : Rounding) (x : ℚ) (hx : x < 0) (hr : R.r4 (x + 360) = x) (fuel : Nat) (x1 x3 x4 : ℚ) :
    encodeE R fuel (x1, x, x3, x4) = none := by
  have : addTurns R fuel x = none := by
    induction fuel with
    | zero => rfl
    | succ n ih => simp only [addTurns]; rw [if_pos hx, hr]; exact ih
  unfold encodeE
  simp only [this]

/-- Such a longitude: -2^40. -/
example : nearest 24 (-2 ^ 40 + 360) = -2 ^ 40 := by
  have h := nearest_best 24 (by norm_num) (-2 ^ 40 + 360) (-1) 40 (by norm_num)
  obtain ⟨u, e, he, hu, h1, h2, h3⟩ := nearest_spec 24 (by norm_num) (-2 ^ 40 + 360) (by norm_num)
  rw [abs_of_neg (show (-2 ^ 40 + 360 : ℚ) < 0 by norm_num)] at h1 h2
  have e1 : e ≤ 16 := by
    by_contra hc
    have : (2 : ℚ) ^ (17 : Int) ≤ 2 ^ e := zpow_le_zpow_right₀ (by norm_num) (by omega)
    rw [← he] at this
    norm_num at this h1
    linarith
  have e2 : 16 ≤ e := by
    by_contra hc
    have : (2 : ℚ) ^ e ≤ 2 ^ (15 : Int) := zpow_le_zpow_right₀ (by norm_num) (by omega)
    rw [← he] at this
    norm_num at this h2
    linarith
  have e3 : e = 16 := by omega
  subst e3
  norm_num at he
  rw [h3, he]
  have : round ((-2 ^ 40 + 360 : ℚ) / 65536) = -2 ^ 24 := by
    rw [round_eq, Int.floor_eq_iff]
    norm_num
  rw [this]
  norm_num

end Props.Grid
