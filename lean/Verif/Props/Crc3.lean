import Mathlib.Algebra.Polynomial.Div
import Mathlib.Algebra.Polynomial.Inductions
import Mathlib.Algebra.CharP.Two
import Mathlib.Algebra.Field.ZMod
import Mathlib.RingTheory.Polynomial.Basic
import Mathlib.Tactic.LinearCombination
import Verif.Crc3

/-! # C73: the codes of 16, 24 and 32 bits are remainders of polynomials -/

namespace Verif.Crc3

open Polynomial

/-! ### Specification -/

/-- The polynomial over the field of two elements with these coefficients. -/
noncomputable def poly {w : Nat} (v : BitVec w) : (ZMod 2)[X] :=
  ∑ i ∈ Finset.range w, if v.getLsbD i then X ^ i else 0

/-- The polynomial of a message, the first bit having the highest power. -/
noncomputable def msg (bits : List Bool) : (ZMod 2)[X] :=
  bits.foldl (fun p b => p * X + if b then 1 else 0) 0

/-- The polynomial which is divided by: `x^w` and the coefficients of the documentation. -/
noncomputable def divisor {w : Nat} (P : BitVec w) : (ZMod 2)[X] := X ^ w + poly P

/-- One bit of long division. -/
def shift1 {w : Nat} (P r : BitVec w) : BitVec w := (r <<< 1) ^^^ (if r.msb then P else 0#w)

def top (w : Nat) (b : Bool) : BitVec w := if b then BitVec.twoPow w (w - 1) else 0#w

def feed {w : Nat} (P r : BitVec w) (b : Bool) : BitVec w := shift1 P (r ^^^ top w b)

def divide {w : Nat} (P r : BitVec w) (bits : List Bool) : BitVec w := bits.foldl (feed P) r

theorem two_add (p : (ZMod 2)[X]) : p + p = 0 := CharTwo.add_self_eq_zero p

theorem poly_xor {w : Nat} (a b : BitVec w) : poly (a ^^^ b) = poly a + poly b := by
  simp only [poly, ← Finset.sum_add_distrib]
  apply Finset.sum_congr rfl
  intro i _
  rw [BitVec.getLsbD_xor]
  cases a.getLsbD i <;> cases b.getLsbD i <;> simp [two_add]

theorem poly_zero (w : Nat) : poly (0#w) = 0 := by simp [poly]

theorem poly_top {w : Nat} (hw : 0 < w) (b : Bool) :
    poly (top w b) = if b then X ^ (w - 1) else 0 := by
  cases b
  · simp [top, poly_zero]
  · simp only [top, if_true, poly]
    rw [Finset.sum_eq_single (w - 1)]
    · simp [BitVec.getLsbD_twoPow, hw]
    · intro i hi hne
      simp [BitVec.getLsbD_twoPow, hne, Ne.symm hne]
    · intro h
      simp at h
      omega

theorem poly_shift {w : Nat} (a : BitVec w) :
    poly (a <<< 1) = poly a * X + if a.msb then X ^ w else 0 := by
  cases w with
  | zero => simp [poly, BitVec.msb_eq_getLsbD_last]
  | succ k =>
    simp only [poly, Finset.sum_mul]
    rw [Finset.sum_range_succ', Finset.sum_range_succ]
    have h1 : ∀ i ∈ Finset.range k,
        (if (a <<< 1).getLsbD (i + 1) then (X : (ZMod 2)[X]) ^ (i + 1) else 0)
          = (if a.getLsbD i then X ^ i else 0) * X := by
      intro i hi
      have hi : i < k := Finset.mem_range.1 hi
      rw [BitVec.getLsbD_shiftLeft]
      simp only [Nat.add_sub_cancel, show i + 1 < k + 1 by omega, decide_true, Bool.true_and,
        show ¬ (i + 1 < 1) by omega, decide_false, Bool.not_false]
      cases a.getLsbD i <;> simp [pow_succ]
    rw [Finset.sum_congr rfl h1]
    have h2 : (if a.getLsbD k then (X : (ZMod 2)[X]) ^ k else 0) * X
        = if a.msb then X ^ (k + 1) else 0 := by
      rw [BitVec.msb_eq_getLsbD_last, Nat.add_sub_cancel]
      cases a.getLsbD k <;> simp [pow_succ]
    rw [h2, add_assoc, two_add]
    simp [BitVec.getLsbD_shiftLeft]

theorem poly_shift1 {w : Nat} (P a : BitVec w) :
    ∃ q, poly a * X = q * divisor P + poly (shift1 P a) := by
  refine ⟨if a.msb then 1 else 0, ?_⟩
  rw [shift1, poly_xor, poly_shift]
  cases a.msb
  · simp [poly_zero]
  · simp only [if_true, divisor, one_mul]
    have h1 := two_add (X ^ w : (ZMod 2)[X])
    have h2 := two_add (poly P)
    linear_combination -h1 - h2

theorem poly_divide {w : Nat} (hw : 0 < w) (P : BitVec w) : ∀ (bits : List Bool) (r : BitVec w),
    ∃ q, poly r * X ^ bits.length + msg bits * X ^ w = q * divisor P + poly (divide P r bits) := by
  intro bits
  induction bits using List.reverseRecOn with
  | nil => intro r; exact ⟨0, by simp [msg, divide]⟩
  | append_singleton l b ih =>
    intro r
    obtain ⟨q, hq⟩ := ih r
    have hd : divide P r (l ++ [b]) = shift1 P (divide P r l ^^^ top w b) := by
      simp [divide, feed]
    obtain ⟨q', hq'⟩ := poly_shift1 P (divide P r l ^^^ top w b)
    rw [poly_xor, poly_top hw] at hq'
    have hm : msg (l ++ [b]) = msg l * X + if b then 1 else 0 := by simp [msg]
    have hx : (X : (ZMod 2)[X]) ^ (w - 1) * X = X ^ w := by
      rw [← pow_succ]; congr 1; omega
    refine ⟨q * X + q', ?_⟩
    rw [hd, hm, List.length_append, List.length_singleton, pow_succ]
    cases b
    · simp only [if_false, Bool.false_eq_true, add_zero] at hq' ⊢
      linear_combination X * hq + hq'
    · simp only [if_true] at hq' ⊢
      linear_combination X * hq + hq' - hx

theorem degree_poly {w : Nat} (v : BitVec w) : (poly v).degree < w := by
  rw [poly, degree_lt_iff_coeff_zero]
  intro m hm
  rw [finsetSum_coeff]
  apply Finset.sum_eq_zero
  intro i hi
  have : i < w := Finset.mem_range.1 hi
  split
  · rw [coeff_X_pow, if_neg (by omega)]
  · simp

theorem divisor_monic {w : Nat} (P : BitVec w) : (divisor P).Monic :=
  monic_X_pow_add (degree_poly P)

theorem degree_divisor {w : Nat} (P : BitVec w) : (divisor P).degree = w := by
  rw [divisor, degree_add_eq_left_of_degree_lt]
  · simp
  · rw [degree_X_pow]; exact degree_poly P

/-- The register holds the remainder. -/
theorem divide_remainder {w : Nat} (hw : 0 < w) (P r : BitVec w) (bits : List Bool) :
    poly (divide P r bits) = (poly r * X ^ bits.length + msg bits * X ^ w) %ₘ divisor P := by
  obtain ⟨q, hq⟩ := poly_divide hw P bits r
  have h := (div_modByMonic_unique q (poly (divide P r bits)) (divisor_monic P)
    (f := poly r * X ^ bits.length + msg bits * X ^ w)
    ⟨by rw [hq]; ring, by rw [degree_divisor]; exact degree_poly _⟩).2
  exact h.symm

theorem poly_inj {w : Nat} {a b : BitVec w} (h : poly a = poly b) : a = b := by
  have hc : ∀ (v : BitVec w) (i : Nat), i < w → (poly v).coeff i = if v.getLsbD i then 1 else 0 := by
    intro v i hi
    rw [poly, finsetSum_coeff, Finset.sum_eq_single i]
    · split <;> simp
    · intro j _ hj
      split
      · rw [coeff_X_pow, if_neg (Ne.symm hj)]
      · simp
    · intro hn; exact absurd (Finset.mem_range.2 hi) hn
  apply BitVec.eq_of_getLsbD_eq
  intro i hi
  have h1 := hc a i hi
  rw [h, hc b i hi] at h1
  revert h1
  cases a.getLsbD i <;> cases b.getLsbD i <;> simp

/-! ### Bursts -/

theorem msg_append (a b : List Bool) : msg (a ++ b) = msg a * X ^ b.length + msg b := by
  induction b using List.reverseRecOn with
  | nil => simp [msg]
  | append_singleton l c ih =>
    have hm : ∀ l : List Bool, msg (l ++ [c]) = msg l * X + if c then 1 else 0 := by
      intro l; simp [msg]
    rw [← List.append_assoc, hm, hm, ih, List.length_append, List.length_singleton, pow_succ]
    ring

theorem msg_degree (a : List Bool) : (msg a).degree < (a.length : WithBot ℕ) ∨ msg a = 0 := by
  induction a using List.reverseRecOn with
  | nil => exact Or.inr rfl
  | append_singleton l c ih =>
    left
    have hm : msg (l ++ [c]) = msg l * X + if c then 1 else 0 := by simp [msg]
    rw [hm, List.length_append, List.length_singleton, degree_lt_iff_coeff_zero]
    intro m hm
    have h0 : ∀ k, l.length ≤ k → (msg l).coeff k = 0 := by
      intro k hk
      rcases ih with h | h
      · exact (degree_lt_iff_coeff_zero _ _).1 h k hk
      · rw [h]; simp
    rw [coeff_add]
    obtain ⟨k, rfl⟩ : ∃ k, m = k + 1 := ⟨m - 1, by omega⟩
    rw [coeff_mul_X, h0 k (by omega)]
    split
    · rw [coeff_one, if_neg (by omega)]; simp
    · simp

theorem msg_inj : ∀ (a b : List Bool), a.length = b.length → msg a = msg b → a = b := by
  intro a
  induction a using List.reverseRecOn with
  | nil => intro b h _; exact (List.length_eq_zero_iff.1 h.symm).symm
  | append_singleton l c ih =>
    intro b
    cases b using List.reverseRecOn with
    | nil => intro h; simp at h
    | append_singleton m d =>
      intro hl h
      have hm : ∀ (l : List Bool) (c : Bool), msg (l ++ [c]) = msg l * X + if c then 1 else 0 := by
        intro l c; simp [msg]
      rw [hm, hm] at h
      have h0 := congrArg (fun p => coeff p 0) h
      have hcd : c = d := by
        revert h0
        cases c <;> cases d <;> simp
      subst hcd
      have h1 : msg l * X = msg m * X := add_right_cancel h
      have h2 : msg l = msg m := mul_right_cancel₀ X_ne_zero h1
      rw [ih m (by simpa using hl) h2]

theorem divide_burst {w : Nat} (hw : 0 < w) (P r : BitVec w) (hP : P.getLsbD 0 = true)
    (p a b q : List Bool) (hlen : a.length = b.length) (ha : a.length ≤ w)
    (h : divide P r (p ++ a ++ q) = divide P r (p ++ b ++ q)) : a = b := by
  apply msg_inj a b hlen
  obtain ⟨u, hu⟩ := poly_divide hw P (p ++ a ++ q) r
  obtain ⟨v, hv⟩ := poly_divide hw P (p ++ b ++ q) r
  rw [h] at hu
  have hl : (p ++ a ++ q).length = (p ++ b ++ q).length := by simp [hlen]
  rw [hl] at hu
  simp only [msg_append, hlen] at hu hv
  have hd : divisor P ∣ (msg a - msg b) * X ^ (q.length + w) := by
    refine ⟨u - v, ?_⟩
    rw [pow_add]
    linear_combination hu - hv
  have hcop : IsCoprime (divisor P) X := by
    refine ⟨1, -(divisor P).divX, ?_⟩
    have h1 := divX_mul_X_add (divisor P)
    have h0 : (divisor P).coeff 0 = 1 := by
      rw [divisor, coeff_add, coeff_X_pow, if_neg (by omega), poly, finsetSum_coeff,
        Finset.sum_eq_single 0]
      · simp [hP]
      · intro j _ hj
        split
        · rw [coeff_X_pow, if_neg (Ne.symm hj)]
        · simp
      · intro hn; exact absurd (Finset.mem_range.2 hw) hn
    rw [h0] at h1
    simp only [map_one] at h1
    linear_combination -h1
  have hd2 := (hcop.pow_right (n := q.length + w)).dvd_of_dvd_mul_right hd
  have hz := eq_zero_of_dvd_of_degree_lt hd2 (by
    rw [degree_divisor, degree_lt_iff_coeff_zero]
    intro m hm
    have hh : ∀ c : List Bool, c.length ≤ m → (msg c).coeff m = 0 := by
      intro c hc
      rcases msg_degree c with h | h
      · exact (degree_lt_iff_coeff_zero _ _).1 h m hc
      · rw [h]; simp
    rw [coeff_sub, hh a (by omega), hh b (by omega), sub_zero])
  exact sub_eq_zero.1 hz

end Verif.Crc3
