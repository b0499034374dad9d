import Verif.FstDataLemmas
import Verif.Props.PackInteger
import Verif.Props.Ieeepak

/-! Helper lemmas: requests, records and the packers put together. -/

namespace Verif.FstData

/-- Dimensions and width that `c_fstecr` accepts. -/
structure Dims (ni nj nk nb : Nat) : Prop where
  hni : 1 ≤ ni ∧ ni ≤ 0xFFFFFF
  hnj : 1 ≤ nj ∧ nj ≤ 0xFFFFFF
  hnk : 1 ≤ nk ∧ nk ≤ 0xFFFFF
  hnb : 1 ≤ nb ∧ nb ≤ 64
  size : ni * nj * nk * nb / 32 ≤ 33554400

theorem Dims.pos {ni nj nk nb : Nat} (D : Dims ni nj nk nb) : 1 ≤ ni * nj * nk :=
  Nat.mul_pos (Nat.mul_pos D.hni.1 D.hnj.1) D.hnk.1

theorem plan_neg {t nb ni nj nk : Nat} (ht : baseType t = (t, false)) (h801 : t ≠ 801) (h133 : t ≠ 133) (h1 : 1 ≤ nb)
    (D : Dims ni nj nk (plan1 false t t nb).2) :
    plan false [] t (-(nb : Int)) ni nj nk =
      some ⟨t, (plan2 (plan1 false t t nb).1 (plan1 false t t nb).2).1, (plan2 (plan1 false t t nb).1 (plan1 false t t nb).2).2, false⟩ := by
  have hb : nbitsOf (-(nb : Int)) = nb := by
    unfold nbitsOf
    rw [if_neg (by omega), if_pos (by omega)]
    omega
  have hc := D.size
  have h2 := D.hni
  have h3 := D.hnj
  have h4 := D.hnk
  have h5 := D.hnb
  unfold plan
  simp only [ht, if_neg h801, hb, Int.toNat_natCast, h133, false_and, if_false]
  have hn : ¬ (-(nb : Int) = 0 ∨ -(nb : Int) = 1) := by omega
  rw [if_neg (by omega), if_neg hn]
  simp [remapped]

theorem plan1_same {t nb : Nat} (h : t ≠ 1 ∨ nb ≤ 30) : plan1 false t t nb = (t, nb) := by
  unfold plan1
  rw [if_neg (by omega)]

theorem plan2_same {t nb : Nat} (h6 : t ≠ 6 ∨ nb ≤ 16) (h : t < 128) : plan2 t nb = (t, nb) := by
  have : t &&& 0x7F = t := by
    rw [show (0x7F : Nat) = 2 ^ 7 - 1 by rfl, Nat.and_two_pow_sub_one_eq_mod, Nat.mod_eq_of_lt h]
  unfold plan2
  simp only [this, ite_self]
  rw [if_neg (by omega), if_neg (by omega)]

/-- Ordinary requests go through unchanged. -/
theorem plan_same {t nb ni nj nk : Nat} (ht : baseType t = (t, false)) (h128 : t < 128) (h1 : t ≠ 1 ∨ nb ≤ 30)
    (h6 : t ≠ 6 ∨ nb ≤ 16) (D : Dims ni nj nk nb) :
    plan false [] t (-(nb : Int)) ni nj nk = some ⟨t, t, nb, false⟩ := by
  have := plan_neg (t := t) (nb := nb) (ni := ni) (nj := nj) (nk := nk) ht (by omega) (by omega) D.hnb.1
    (by rw [plan1_same h1]; exact D)
  rw [plan1_same h1, plan2_same h6 h128] at this
  exact this

theorem nwords_default {t : Nat} (n nb : Nat) (h : t = 0 ∨ t = 1 ∨ t = 2 ∨ t = 3 ∨ t = 4 ∨ t = 5 ∨ t = 7) :
    nwords t n nb = 2 * ((n * nb + 120 + 63) / 64) := by
  unfold nwords
  rw [if_neg (by omega), if_neg (by omega), if_neg (by omega), if_neg (by omega), if_neg (by omega)]

/-- The words of a record of an ordinary type fit the work field. -/
theorem work_default (s : Stored) (n : Nat) (len : Len) (h6 : s.datyp ≠ 6) (h : s.datyp ≤ 128) :
    ∃ z : List W, z ≠ [] ∧ workField s n len = some (s.words ++ z) := by
  have ha : s.words.length + 22 ≤ readArea s.datyp n s.words.length (len = .double) := by
    unfold readArea keysLen
    dsimp only
    rw [if_neg (by omega), if_neg (by omega), if_neg (by omega)]
    split <;> omega
  refine ⟨List.replicate (readArea s.datyp n s.words.length (len = .double) - s.words.length) 0, ?_, ?_⟩
  · intro hz
    have := congrArg List.length hz
    simp at this
    omega
  · unfold workField
    dsimp only
    rw [if_pos (by unfold keysLen; omega)]

theorem narrow_record {k : Nat} (hk : k ≤ 32) (u1 u2 : W) (xs out : List (BitVec k)) (dst : List W) (b nw : Nat)
    (hb1 : 1 ≤ b) (hb2 : b ≤ 32) (hfit : ∀ x ∈ xs, x.toNat < 2 ^ b) (hnw : nw < dst.length) (hroom : xs.length * b ≤ 32 * nw)
    (hout : xs.length ≤ out.length) :
    ∃ d, compactNarrowPack u1 xs dst xs.length b 0 1 = some ((b : Int), d) ∧ d.length = dst.length ∧
      ∀ z : List W, z ≠ [] → compactNarrowUnpack u2 out (d.take nw ++ z) xs.length b 0 1 =
        some ((b : Int), xs ++ out.drop xs.length) := by
  have hs : Strided xs 1 xs := by simpa using strided_self xs []
  obtain ⟨d, o, e, eu, so, lo, po⟩ := C05_narrow_roundtrip hk u1 u2 xs out xs dst b 0 1 hb1 hb2 (le_refl 1) hs hfit
    (by omega) (by intro j hj; omega)
  obtain ⟨d', e', l', -⟩ := pack_spec (kind := .raw 0) (mask := cleanup u1 b) (off := 0) (dst := dst) hb2 hs
    (fun x _ => written_cleanup_lt u1 _ 0 hb1 hb2 _) (by omega)
  have hd : d' = d := by
    unfold compactNarrowPack at e
    rw [if_neg (by omega), if_neg (by omega), e'] at e
    simpa using e
  subst hd
  refine ⟨d', e, l', fun z hz => ?_⟩
  have := strided_one so po
  rw [← this, ← eu]
  unfold compactNarrowUnpack
  rw [unpack_record u2 hb1 hb2 (by omega) (by omega) hz hout]

theorem integer_record (signed : Bool) (u1 u2 : W) (xs t out : List W) (dst : List W) (b nw : Nat)
    (hb1 : 1 ≤ b) (hb2 : b ≤ 32)
    (hfit : ∀ x ∈ xs, if signed then -2 ^ (b - 1) ≤ x.toInt ∧ x.toInt < 2 ^ (b - 1) else x.toNat < 2 ^ b)
    (hnw : nw < dst.length) (hroom : xs.length * b ≤ 32 * nw) (hout : xs.length ≤ out.length) :
    ∃ d, compactIntegerPack u1 signed false (xs ++ t) dst xs.length b 0 1 = some ((b : Int), none, d) ∧ d.length = dst.length ∧
      ∀ z : List W, z ≠ [] → compactIntegerUnpack u2 signed out none (d.take nw ++ z) xs.length b 0 1 =
        some ((b : Int), xs ++ out.drop xs.length) := by
  have hs : Strided (xs ++ t) 1 xs := strided_self xs t
  obtain ⟨d, o, e, eu, so, po⟩ : ∃ d o, compactIntegerPack u1 signed false (xs ++ t) dst xs.length b 0 1 = some ((b : Int), none, d) ∧
      compactIntegerUnpack u2 signed out none d xs.length b 0 1 = some ((b : Int), o) ∧ Strided o 1 xs ∧
      (∀ p, (∀ j, j < xs.length → p ≠ j * 1) → o[p]? = out[p]?) := by
    cases signed with
    | false =>
      obtain ⟨d, o, e, eu, so, lo, po⟩ := C01_unsigned_roundtrip u1 u2 (xs ++ t) dst out xs b 0 1 hb1 hb2 (le_refl 1) hs
        (by simpa using hfit) (by omega) (by intro j hj; omega)
      exact ⟨d, o, e, eu, so, po⟩
    | true =>
      obtain ⟨d, o, e, eu, so, lo, po⟩ := C02_signed_roundtrip u1 u2 (xs ++ t) dst out xs b 0 1 hb1 hb2 (le_refl 1) hs
        (by simpa using hfit) (by omega) (by intro j hj; omega)
      exact ⟨d, o, e, eu, so, po⟩
  obtain ⟨d', e', l', -⟩ := pack_spec (kind := .raw (if signed then 1#32 <<< (b - 1) else 0)) (mask := cleanup u1 b) (off := 0)
    (dst := dst) hb2 hs (fun x _ => written_cleanup_lt u1 _ 0 hb1 hb2 _) (by omega)
  have hd : d' = d := by
    unfold compactIntegerPack at e
    rw [if_neg (by omega), if_neg (by omega), hs.gather] at e
    simp only [Bool.false_eq_true, if_false, Int.toNat_natCast] at e
    rw [if_neg (by omega), e'] at e
    simpa using e
  subst hd
  refine ⟨d', e, l', fun z hz => ?_⟩
  have := strided_one so po
  rw [← this, ← eu]
  unfold compactIntegerUnpack
  simp only [Int.toNat_natCast]
  rw [unpack_record u2 hb1 hb2 (by omega) (by omega) hz hout]

end Verif.FstData
