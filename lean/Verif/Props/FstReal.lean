import Verif.Props.FstData
import Verif.Props.CompactFloat
import Verif.Props.FloatPacker

/-! # Property C84, packed reals -/

namespace Verif.FstData

open Grid (Rounding)
open FloatPacker (F32 val expo)
open CompactFloat (compactPack compactUnpack fval missing headCount widths)
open Props.CompactFloat (Prec big)
open Props.FloatPacker (Finite IsSub)

variable {ni nj nk nb : Nat} (u1 u2 : W) (sub : F32 → F32 → F32)

/-- The reader of reals takes only the words of the record. -/
theorem float_record (R : Rounding) (u : W) (d z : List W) (n b nw : Nat) (w0 w3 : W) (hb1 : 1 ≤ b) (hb : b ≤ 32)
    (d0 : d[0]? = some w0) (d3 : d[3]? = some w3) (hs : CompactFloat.field w3 8 8 = b) (hc : headCount w0 w3 n = n)
    (h4 : 4 ≤ nw) (hnw : nw < d.length) (hroom : 120 + n * b ≤ 32 * nw) (hz : z ≠ []) :
    compactUnpack R u none (d.take nw ++ z) 0 120 n = compactUnpack R u none d 0 120 n := by
  have hi : ∀ (i : Nat), i < nw → (d.take nw ++ z)[i]? = d[i]? := by
    intro i hi
    rw [List.getElem?_append_left (by simp; omega), List.getElem?_take, if_pos hi]
  obtain ⟨w1, d1⟩ : ∃ w, d[1]? = some w := ⟨_, List.getElem?_eq_getElem (by omega)⟩
  obtain ⟨w2, d2⟩ : ∃ w, d[2]? = some w := ⟨_, List.getElem?_eq_getElem (by omega)⟩
  unfold compactUnpack
  simp only [Nat.zero_add]
  rw [hi 0 (by omega), hi 1 (by omega), hi 2 (by omega), hi 3 (by omega), d0, d1, d2, d3]
  dsimp only
  rw [hs, hc, unpack_record u hb1 hb hnw hroom hz (by simp)]

/-- C84.  Packed reals: type 1 with at most 30 bits, and type 6 with 17 to 24 bits, which is stored as type 1.  Every
value comes back within a step of the range divided by `2 ^ nb - 1` (twice) and the rounding of a single real; order
is kept, the least value is exact.  Values are finite and not larger than `big`, the least is 0 or normal (C59). -/
theorem C84_real_partial {R : Rounding} (hR : Prec R) (t : Nat) (hreq : (t = 1 ∧ nb ≤ 30) ∨ (t = 6 ∧ 16 < nb ∧ nb ≤ 24))
    (D : Dims ni nj nk nb) (len : Len) (hlen : len ≠ .double) (xs out : List W) (hx : xs.length = ni * nj * nk) (mn mx : W)
    (hmn : mn ∈ xs) (hmx : mx ∈ xs) (hall : ∀ x ∈ xs, val mn ≤ val x ∧ val x ≤ val mx)
    (hbig : |fval mn| ≤ big ∧ |fval mx| ≤ big) (hnorm : val mn = 0 ∨ 1 ≤ expo mn) :
    ∃ p s ys step, plan false [] t (-(nb : Int)) ni nj nk = some p ∧ writeData u1 R p len ni nj nk (.words xs) = some s ∧
      s.datyp = 1 ∧ s.nbits = nb ∧
      readData u2 R sub s len ni nj nk (.words out) = some (.reals ys) ∧ ys.length = xs.length ∧
      0 ≤ step ∧ step * (2 ^ nb - 1) ≤ 2 * (fval mx - fval mn) * (1 + 1 / 2 ^ 52) ∧
      ∀ (i : Nat) x y, xs[i]? = some x → ys[i]? = some y →
        fval mn ≤ y ∧ (val x = val mn → y = fval x) ∧
        |y - fval x| ≤ step * (1 + 1 / 2 ^ 23) + |fval x| * (1 / 2 ^ 24 + 1 / 2 ^ 50) + (fval x - fval mn) / 2 ^ 41 + 1 / 2 ^ 149 ∧
        ∀ (j : Nat) x' y', xs[j]? = some x' → ys[j]? = some y' → val x ≤ val x' → y ≤ y' := by
  have hnb := D.hnb
  have hpos := D.pos
  have hp : plan false [] t (-(nb : Int)) ni nj nk = some ⟨t, 1, nb, false⟩ := by
    rcases hreq with ⟨rfl, h⟩ | ⟨rfl, h1, h2⟩
    · exact plan_same (by decide) (by omega) (by omega) (by omega) D
    · have e : plan1 false 6 6 nb = (6, nb) := plan1_same (by omega)
      have := plan_neg (t := 6) (nb := nb) (ni := ni) (nj := nj) (nk := nk) (by decide) (by omega) (by omega) (by omega)
        (by rw [e]; exact D)
      rw [e] at this
      have e2 : plan2 6 nb = (1, nb) := by
        unfold plan2
        have : (6 : Nat) &&& 0x7F = 6 := by decide
        simp [this, show ¬ 24 < nb by omega, h1]
      rw [e2] at this
      exact this
  have hw := nwords_default (t := 1) (ni * nj * nk) nb (by omega)
  have hmul : 1 * 1 ≤ ni * nj * nk * nb := Nat.mul_le_mul hpos hnb.1
  have hwid : widths nb = (nb, nb) := by unfold widths; rw [if_neg (by omega)]
  obtain ⟨d, ys, step, ⟨w0, w3, d0, d3, hs, hc⟩, hpk, hup, dl, yl, -, s0, s1, hy⟩ :=
    Props.CompactFloat.compact_core hR u2 none xs nb nb true (cleared (nwords 1 (ni * nj * nk) nb)) 0 120 mn mx hwid hnb.1 (by omega)
      (by simp) (by simp) (by rw [area_len, hw, hx]; omega) ⟨hmn, rfl⟩ ⟨hmx, rfl⟩ (fun x hx _ => hall x hx) hbig hnorm
  refine ⟨_, ⟨1, nb, false, d.take (nwords 1 (ni * nj * nk) nb)⟩, ys, step, hp, ?_, rfl, rfl, ?_, yl, s0, s1, ?_⟩
  · unfold writeData
    have ht : xs.take (ni * nj * nk) = xs := by rw [← hx, List.take_length]
    have h801 : ¬ t = 801 := by omega
    simp [hlen, h801, hx, ht, hpk]
  · obtain ⟨z, hz, ez⟩ := work_default ⟨1, nb, false, d.take (nwords 1 (ni * nj * nk) nb)⟩ (ni * nj * nk) len (by simp) (by simp)
    have hr := float_record R u2 d z xs.length nb (nwords 1 (ni * nj * nk) nb) w0 w3 hnb.1 (by omega) d0 d3 hs hc (by omega)
      (by rw [dl, area_len]; omega) (by rw [hx, hw]; omega) hz
    rw [hup, hx] at hr
    unfold readData
    cases len with
    | double => exact absurd rfl hlen
    | _ => simp [ez, hr]
  · intro i x y hxi hyi
    obtain ⟨h1, h2, h3, h4⟩ := (hy i x y hxi hyi).2 rfl
    exact ⟨h1, h2, h3, fun j x' y' hxj hyj h => h4 j x' y' hxj hyj rfl h⟩

theorem words_length : ∀ l : List Nat, (FloatPacker.words l).length = (l.length + 1) / 2
  | [] => rfl
  | [_] => by simp [FloatPacker.words]
  | _ :: _ :: t => by
    simp only [FloatPacker.words, List.length_cons, words_length t]
    omega

theorem tokens_append : ∀ (n : Nat) (l z : List W), (n + 1) / 2 ≤ l.length → FloatPacker.tokens n (l ++ z) = FloatPacker.tokens n l
  | 0, _, _, _ => by simp [FloatPacker.tokens]
  | 1, [], _, h => by simp at h
  | 1, _ :: _, _, _ => by simp [FloatPacker.tokens]
  | n + 2, [], _, h => by simp at h; omega
  | n + 2, w :: t, z, h => by
    simp only [List.cons_append, FloatPacker.tokens]
    rw [tokens_append n t z (by simp at h; omega)]

theorem nwords_six (n nb : Nat) : 3 + (n + 1) / 2 ≤ nwords 6 n nb := by
  unfold nwords
  rw [if_pos rfl]
  omega

/-- The words of a record of type 6 fit the work field. -/
theorem work_six (s : Stored) (n nb : Nat) (len : Len) (h6 : s.datyp = 6) (hl : s.words.length = nwords 6 n nb) :
    ∃ z : List W, z ≠ [] ∧ workField s n len = some (s.words ++ z) := by
  have h : s.words.length + keysLen ≤ readArea s.datyp n s.words.length (len = .double) := by
    rw [hl]
    unfold readArea keysLen nwords
    dsimp only
    rw [h6, if_pos rfl, if_pos (Or.inl rfl)]
    omega
  refine ⟨List.replicate (readArea s.datyp n s.words.length (len = .double) - s.words.length) 0, ?_, ?_⟩
  · intro e
    have := congrArg List.length e
    rw [List.length_replicate, List.length_nil] at this
    unfold keysLen at h
    omega
  · unfold workField
    dsimp only
    rw [if_pos h]

/-- C84.  Packed reals of type 6 with at most 16 bits: every value comes back within a step of the precision of C41
(units of `val`).  The values are finite, and not all of them very small (C41). -/
theorem C84_packed_partial (R : Rounding) (hsub : IsSub sub) (D : Dims ni nj nk nb) (hnb : nb ≤ 16) (len : Len) (xs out : List W)
    (hx : xs.length = ni * nj * nk) (hout : xs.length ≤ out.length) (hfin : ∀ b ∈ xs, Finite b)
    (hz : (∃ b ∈ xs, 24 ≤ expo b) ∨ ∀ b ∈ xs, expo b ≠ 0) :
    ∃ p s ys E sh, plan false [] 6 (-(nb : Int)) ni nj nk = some p ∧ writeData u1 R p len ni nj nk (.words xs) = some s ∧
      s.datyp = 6 ∧ s.nbits = nb ∧
      readData u2 R sub s len ni nj nk (.words out) = some (.words (ys ++ out.drop xs.length)) ∧ ys.length = xs.length ∧
      (∃ b ∈ xs, expo b = E) ∧ (∀ b ∈ xs, expo b ≤ E) ∧
      (sh = 0 ∨ ∃ a ∈ xs, ∃ b ∈ xs, 2 ^ sh * 2 ^ (E - 1) * 2 ^ (nb - 1) ≤ val a - val b + 2 ^ (E - 1)) ∧
      ∀ (i : Nat) (x y : W), xs[i]? = some x → ys[i]? = some y → (val y - val x).natAbs < 2 ^ sh * 2 ^ (E - 1) := by
  have hpos := D.pos
  obtain ⟨z, rest, rfl⟩ : ∃ z rest, xs = z :: rest := by
    cases xs with
    | nil => simp only [List.length_nil] at hx; omega
    | cons z rest => exact ⟨z, rest, rfl⟩
  obtain ⟨E, sh, ys, h1, h2, h3, h4, h5, h6⟩ := Props.FloatPacker.C41_partial sub hsub z rest nb D.hnb.1 hnb hfin hz
  have hlen : (z :: rest).length < 2 ^ 32 := by
    have a := D.size
    have b : ni * nj * nk * 1 ≤ ni * nj * nk * nb := Nat.mul_le_mul_left _ D.hnb.1
    rw [hx]
    omega
  generalize hP : FloatPacker.pack z rest nb = P at h4
  have hstream : P.stream.length = ((z :: rest).length + 1) / 2 := by
    rw [← hP]
    simp only [FloatPacker.pack, words_length, List.length_map]
  have hcount : P.h2 = (z :: rest).length := by rw [← hP]; rfl
  have hmin : (BitVec.ofInt 32 P.h1).toInt = P.h1 := by
    obtain ⟨-, g1, -, g2, g3, -⟩ := Props.FloatPacker.C41_no_overflow z rest nb D.hnb.1 hnb hfin hz z (by simp)
    have e : P.h1 = FloatPacker.normExtreme (max (expo (FloatPacker.maxOf z (z :: rest))) (expo (FloatPacker.minOf z (z :: rest))))
        (FloatPacker.minOf z (z :: rest)) := by rw [← hP]; rfl
    have g4 := lt_of_le_of_lt (le_add_of_nonneg_right (Int.natCast_nonneg _)) g3
    rw [← e] at g2 g4
    rw [BitVec.toInt_ofInt]
    apply Int.bmod_eq_of_le <;> omega
  have hw := nwords_six (ni * nj * nk) nb
  have htake : (packedWords P ++ cleared (nwords 6 (ni * nj * nk) nb)).take (nwords 6 (ni * nj * nk) nb) =
      P.h0 :: BitVec.ofInt 32 P.h1 :: BitVec.ofNat 32 P.h2 ::
        (P.stream ++ (cleared (nwords 6 (ni * nj * nk) nb)).take (nwords 6 (ni * nj * nk) nb - 3 - P.stream.length)) := by
    obtain ⟨k, hk⟩ : ∃ k, nwords 6 (ni * nj * nk) nb = k + 3 := ⟨nwords 6 (ni * nj * nk) nb - 3, by omega⟩
    rw [hk]
    simp only [packedWords, List.cons_append, List.take_succ_cons, Nat.add_sub_cancel]
    rw [List.take_append, List.take_of_length_le (by rw [hstream, hx]; omega)]
  refine ⟨_, ⟨6, nb, false, (packedWords P ++ cleared (nwords 6 (ni * nj * nk) nb)).take (nwords 6 (ni * nj * nk) nb)⟩, ys, E, sh,
    plan_same (by decide) (by omega) (by omega) (by omega) D, ?_, rfl, rfl, ?_, h5, h1, h2, h3, h6⟩
  · have ht : (z :: rest).take (ni * nj * nk) = z :: rest := by rw [← hx, List.take_length]
    unfold writeData
    simp only [ht, hP]
    simp only [List.length_cons] at hx
    simp [hx]
  · obtain ⟨t, -, ez⟩ := work_six ⟨6, nb, false, (packedWords P ++ cleared (nwords 6 (ni * nj * nk) nb)).take (nwords 6 (ni * nj * nk) nb)⟩
      (ni * nj * nk) nb len rfl (by simp [area_len]; omega)
    have hun : FloatPacker.unpack sub ⟨P.h0, (BitVec.ofInt 32 P.h1).toInt, (BitVec.ofNat 32 P.h2).toNat,
        P.stream ++ (cleared (nwords 6 (ni * nj * nk) nb)).take (nwords 6 (ni * nj * nk) nb - 3 - P.stream.length) ++ t⟩ (ni * nj * nk)
        = some (ys, nb) := by
      rw [hmin, BitVec.toNat_ofNat, Nat.mod_eq_of_lt (by rw [hcount]; exact hlen)]
      rw [← h4]
      unfold FloatPacker.unpack
      dsimp only
      rw [List.append_assoc, tokens_append _ _ _ (by rw [hstream, hx]), ← hx]
    unfold readData
    rw [htake] at ez ⊢
    simp only [ez, Option.bind_some]
    simp only [List.cons_append, packedOf, Option.bind_some, hun]
    simp only [hx] at hout ⊢
    simp [hout]

end Verif.FstData
