import Verif.Burp
import Verif.CompactIntegerRound
import Mathlib.Data.List.Induction

/-! # Lemmas on the word loops and block headers of BURP reports -/

namespace Verif.Burp

theorem store_some {m : List W} {p : Nat} {v : W} (h : p < m.length) : store m p v = some (m.set p v) := by
  simp [store, h]

theorem fill_spec {src : List W} {p : Nat → Nat} {g : W → W} {idx : Nat} :
    ∀ (ys m : List W), (∀ i (h : i < ys.length), src[p i]? = some ys[i]) → idx + ys.length ≤ m.length →
      ∃ m', fill src p g idx ys.length m = some m' ∧ m'.length = m.length ∧
        ∀ j, m'[j]? = if idx ≤ j ∧ j < idx + ys.length then (ys.map g)[j - idx]? else m[j]? := by
  intro ys
  induction ys using List.reverseRecOn with
  | nil =>
    intro m _ _
    refine ⟨m, rfl, rfl, fun j => ?_⟩
    rw [if_neg (by simp)]
  | append_singleton ys y ih =>
    intro m hs hl
    simp only [List.length_append, List.length_singleton] at hs hl ⊢
    obtain ⟨m', e, l, hj⟩ := ih m (fun i hi => by
      have := hs i (by omega)
      rwa [List.getElem_append_left hi] at this) (by omega)
    have hy := hs ys.length (by omega)
    rw [List.getElem_append_right (Nat.le_refl _)] at hy
    simp only [Nat.sub_self, List.getElem_singleton] at hy
    refine ⟨m'.set (idx + ys.length) (g y), ?_, by simp [l], fun j => ?_⟩
    · unfold fill
      rw [e]
      simp only [hy]
      exact store_some (by omega)
    · rw [List.getElem?_set]
      by_cases h1 : idx + ys.length = j
      · subst h1
        rw [if_pos rfl, if_pos (by omega), if_pos (by omega)]
        simp
      · rw [if_neg h1, hj]
        by_cases h2 : idx ≤ j ∧ j < idx + ys.length
        · rw [if_pos h2, if_pos (by omega), List.map_append, List.getElem?_append_left (by simp; omega)]
        · rw [if_neg h2, if_neg (by omega)]

/-- A filled region. -/
theorem fill_append {src : List W} {p : Nat → Nat} {g : W → W} {a x c ys : List W}
    (hs : ∀ i (h : i < ys.length), src[p i]? = some ys[i]) (hx : x.length = ys.length) :
    fill src p g a.length ys.length (a ++ x ++ c) = some (a ++ ys.map g ++ c) := by
  obtain ⟨m', e, l, hj⟩ := fill_spec (g := g) (idx := a.length) ys (a ++ x ++ c) hs (by simp; omega)
  rw [e]
  congr 1
  apply List.ext_getElem?
  intro j
  rw [hj]
  by_cases h1 : j < a.length
  · rw [if_neg (by omega), List.append_assoc, List.append_assoc, List.getElem?_append_left h1,
      List.getElem?_append_left h1]
  · by_cases h2 : j < a.length + ys.length
    · rw [if_pos (by omega), List.append_assoc, List.getElem?_append_right (by omega),
        List.getElem?_append_left (by simp; omega)]
    · rw [if_neg (by omega), List.getElem?_append_right (by simp; omega), List.getElem?_append_right (by simp; omega)]
      simp [hx]

theorem moveUp_spec (nb lo : Nat) :
    ∀ (k : Nat) (m : List W), lo + k + nb ≤ m.length →
      ∃ m', moveUp nb lo k m = some m' ∧ m'.length = m.length ∧
        ∀ j, m'[j]? = if lo + nb ≤ j ∧ j < lo + nb + k then m[j - nb]? else m[j]? := by
  intro k
  induction k with
  | zero =>
    intro m _
    refine ⟨m, rfl, rfl, fun j => ?_⟩
    rw [if_neg (by omega)]
  | succ k ih =>
    intro m h
    have hlt : lo + k < m.length := by omega
    have hg : m[lo + k]? = some m[lo + k] := List.getElem?_eq_getElem hlt
    obtain ⟨m', e, l, hj⟩ := ih (m.set (lo + k + nb) m[lo + k]) (by simp; omega)
    refine ⟨m', ?_, by simpa using l, fun j => ?_⟩
    · unfold moveUp
      rw [hg]
      simp only
      rw [store_some (by omega)]
      exact e
    · rw [hj]
      by_cases h1 : lo + nb ≤ j ∧ j < lo + nb + k
      · rw [if_pos h1, if_pos (by omega), List.getElem?_set_ne (by omega)]
      · rw [if_neg h1]
        by_cases h2 : j = lo + k + nb
        · subst h2
          rw [if_pos (by omega), List.getElem?_set_self (by omega)]
          rw [show lo + k + nb - nb = lo + k by omega, hg]
        · rw [if_neg (by omega), List.getElem?_set_ne (by omega)]

/-- A region of `nb` words opened between `a` and `b`. -/
theorem moveUp_append {nb : Nat} {a b r : List W} {w : W} (h : nb ≤ r.length) :
    ∃ x, x.length = nb ∧ moveUp nb a.length (b.length + 1) (a ++ b ++ w :: r) =
      some (a ++ x ++ b ++ w :: r.drop nb) := by
  obtain ⟨m', e, l, hj⟩ := moveUp_spec nb a.length (b.length + 1) (a ++ b ++ w :: r) (by simp; omega)
  obtain ⟨x, hx, hxi⟩ : ∃ x : List W, x.length = nb ∧ ∀ i, i < nb → x[i]? = (a ++ b ++ w :: r)[a.length + i]? :=
    ⟨((a ++ b ++ w :: r).drop a.length).take nb, by simp; omega, fun i hi => by
      rw [List.getElem?_take, if_pos hi, List.getElem?_drop]⟩
  refine ⟨x, hx, ?_⟩
  rw [e]
  congr 1
  apply List.ext_getElem?
  intro j
  rw [hj]
  by_cases h1 : j < a.length
  · rw [if_neg (by omega)]
    simp only [List.append_assoc]
    rw [List.getElem?_append_left h1, List.getElem?_append_left h1]
  · by_cases h2 : j < a.length + nb
    · rw [if_neg (by omega)]
      have := hxi (j - a.length) (by omega)
      rw [show a.length + (j - a.length) = j by omega] at this
      rw [← this]
      simp only [List.append_assoc]
      rw [List.getElem?_append_right (by omega), List.getElem?_append_left (by omega)]
    · by_cases h3 : j < a.length + nb + (b.length + 1)
      · rw [if_pos (by omega)]
        simp only [List.append_assoc]
        rw [List.getElem?_append_right (by omega)]
        conv_rhs => rw [List.getElem?_append_right (by omega), List.getElem?_append_right (by omega), hx]
        by_cases h4 : j < a.length + nb + b.length
        · rw [List.getElem?_append_left (by omega), List.getElem?_append_left (by omega)]
          congr 1; omega
        · rw [List.getElem?_append_right (by omega), List.getElem?_append_right (by omega)]
          have e1 : j - nb - a.length - b.length = 0 := by omega
          have e2 : j - a.length - nb - b.length = 0 := by omega
          rw [e1, e2]; simp
      · rw [if_neg (by omega)]
        simp only [List.append_assoc]
        rw [List.getElem?_append_right (by omega), List.getElem?_append_right (by omega)]
        conv_rhs => rw [List.getElem?_append_right (by omega), List.getElem?_append_right (by omega), hx,
          List.getElem?_append_right (by omega)]
        obtain ⟨d, hd⟩ : ∃ d, j = a.length + nb + b.length + 1 + d := ⟨j - (a.length + nb + b.length + 1), by omega⟩
        subst hd
        rw [show a.length + nb + b.length + 1 + d - a.length - b.length = (nb + d) + 1 by omega,
          show a.length + nb + b.length + 1 + d - a.length - nb - b.length = d + 1 by omega]
        simp

theorem moveDown_spec (nb : Nat) :
    ∀ (k lo : Nat) (m : List W), lo + k + nb ≤ m.length →
      ∃ m', moveDown nb lo k m = some m' ∧ m'.length = m.length ∧
        ∀ j, m'[j]? = if lo ≤ j ∧ j < lo + k then m[j + nb]? else m[j]? := by
  intro k
  induction k with
  | zero =>
    intro lo m _
    refine ⟨m, rfl, rfl, fun j => ?_⟩
    rw [if_neg (by omega)]
  | succ k ih =>
    intro lo m h
    have hlt : lo + nb < m.length := by omega
    have hg : m[lo + nb]? = some m[lo + nb] := List.getElem?_eq_getElem hlt
    obtain ⟨m', e, l, hj⟩ := ih (lo + 1) (m.set lo m[lo + nb]) (by simp; omega)
    refine ⟨m', ?_, by simpa using l, fun j => ?_⟩
    · unfold moveDown
      rw [hg]
      simp only
      rw [store_some (by omega)]
      exact e
    · rw [hj]
      by_cases h1 : lo + 1 ≤ j ∧ j < lo + 1 + k
      · rw [if_pos h1, if_pos (by omega), List.getElem?_set_ne (by omega)]
      · rw [if_neg h1]
        by_cases h2 : j = lo
        · subst h2
          rw [if_pos (by omega), List.getElem?_set_self (by omega), hg]
        · rw [if_neg (by omega), List.getElem?_set_ne (by omega)]

theorem zeroFill_spec :
    ∀ (k lo : Nat) (m : List W), lo + k ≤ m.length →
      ∃ m', zeroFill lo k m = some m' ∧ m'.length = m.length ∧
        ∀ j, m'[j]? = if lo ≤ j ∧ j < lo + k then some 0 else m[j]? := by
  intro k
  induction k with
  | zero =>
    intro lo m _
    refine ⟨m, rfl, rfl, fun j => ?_⟩
    rw [if_neg (by omega)]
  | succ k ih =>
    intro lo m h
    obtain ⟨m', e, l, hj⟩ := ih (lo + 1) (m.set lo 0) (by simp; omega)
    refine ⟨m', ?_, by simpa using l, fun j => ?_⟩
    · unfold zeroFill
      rw [store_some (by omega)]
      exact e
    · rw [hj]
      by_cases h1 : lo + 1 ≤ j ∧ j < lo + 1 + k
      · rw [if_pos h1, if_pos (by omega)]
      · rw [if_neg h1]
        by_cases h2 : j = lo
        · subst h2
          rw [if_pos (by omega), List.getElem?_set_self (by omega)]
        · rw [if_neg (by omega), List.getElem?_set_ne (by omega)]

theorem zeroFill_append {a x c : List W} :
    zeroFill a.length x.length (a ++ x ++ c) = some (a ++ List.replicate x.length 0 ++ c) := by
  obtain ⟨m', e, l, hj⟩ := zeroFill_spec x.length a.length (a ++ x ++ c) (by simp)
  rw [e]
  congr 1
  apply List.ext_getElem?
  intro j
  rw [hj]
  by_cases h1 : j < a.length
  · rw [if_neg (by omega), List.append_assoc, List.append_assoc, List.getElem?_append_left h1,
      List.getElem?_append_left h1]
  · by_cases h2 : j < a.length + x.length
    · rw [if_pos (by omega), List.append_assoc, List.getElem?_append_right (by omega),
        List.getElem?_append_left (by simp; omega), List.getElem?_replicate, if_pos (by omega)]
    · rw [if_neg (by omega), List.getElem?_append_right (by simp; omega), List.getElem?_append_right (by simp; omega)]
      simp

/-- Words removed between `a` and `c`. -/
theorem cut_append {a x c r : List W} {w : W} :
    ∃ r', r'.length = r.length + x.length ∧
      (match moveDown x.length a.length (c.length + 1) (a ++ x ++ c ++ w :: r) with
        | none => none
        | some d => zeroFill (a.length + (c.length + 1)) x.length d) = some (a ++ c ++ w :: r') := by
  obtain ⟨m1, e1, l1, h1⟩ := moveDown_spec x.length (c.length + 1) a.length (a ++ x ++ c ++ w :: r)
    (by simp; omega)
  obtain ⟨m2, e2, l2, h2⟩ := zeroFill_spec x.length (a.length + (c.length + 1)) m1 (by rw [l1]; simp; omega)
  refine ⟨m2.drop (a.length + c.length + 1), by simp [l1, l2]; omega, ?_⟩
  rw [e1]
  simp only
  rw [e2]
  congr 1
  apply List.ext_getElem?
  intro j
  have hm2 : ∀ j, j < a.length + c.length + 1 → m2[j]? = (a ++ c ++ [w])[j]? := by
    intro j hj
    rw [h2, if_neg (by omega), h1]
    by_cases g1 : j < a.length
    · rw [if_neg (by omega)]
      simp only [List.append_assoc]
      rw [List.getElem?_append_left g1, List.getElem?_append_left g1]
    · rw [if_pos (by omega)]
      simp only [List.append_assoc]
      conv_lhs => rw [List.getElem?_append_right (by omega), List.getElem?_append_right (by omega)]
      conv_rhs => rw [List.getElem?_append_right (by omega)]
      rw [show j + x.length - a.length - x.length = j - a.length by omega]
      by_cases g2 : j - a.length < c.length
      · rw [List.getElem?_append_left g2, List.getElem?_append_left g2]
      · rw [List.getElem?_append_right (by omega), List.getElem?_append_right (by omega)]
        rw [show j - a.length - c.length = 0 by omega]
        simp
  have hs : a ++ c ++ w :: m2.drop (a.length + c.length + 1) =
      (a ++ c ++ [w]) ++ m2.drop (a.length + c.length + 1) := by simp
  have hl : (a ++ c ++ [w]).length = a.length + c.length + 1 := by simp; omega
  rw [hs]
  generalize a ++ c ++ [w] = z at *
  by_cases h3 : j < a.length + c.length + 1
  · rw [hm2 j h3, List.getElem?_append_left (by omega)]
  · rw [List.getElem?_append_right (by omega), List.getElem?_drop]
    congr 1; omega

/-! ## Headers -/

/-- Every field of a header within its bits. -/
structure Hdr.WF (h : Hdr) : Prop where
  nbit : h.nbit < 2 ^ 5
  btyp : h.btyp < 2 ^ 15
  bfamdesc : h.bfamdesc < 2 ^ 12
  bit0 : h.bit0 < 2 ^ 20
  datyp : h.datyp < 2 ^ 4
  nt : h.nt < 2 ^ 8
  elem1 : h.elem1 < 2 ^ 16
  nval : h.nval < 2 ^ 8
  nele : h.nele < 2 ^ 7
  flag : h.flag < 2
  elem3 : h.elem3 < 2 ^ 16
  elem2 : h.elem2 < 2 ^ 16

/-- The header as its bit fields keep it. -/
def Hdr.canon (h : Hdr) : Hdr :=
  { nbit := h.nbit % 2^5, btyp := h.btyp % 2^15, bfamdesc := h.bfamdesc % 2^12,
    bit0 := h.bit0 % 2^20, datyp := h.datyp % 2^4, nt := h.nt % 2^8,
    elem1 := h.elem1 % 2^16, nval := h.nval % 2^8, nele := h.nele % 2^7, flag := h.flag % 2,
    elem3 := h.elem3 % 2^16, elem2 := h.elem2 % 2^16 }

theorem Hdr.canon_wf (h : Hdr) : h.canon.WF := by
  constructor <;> simp only [Hdr.canon] <;> exact Nat.mod_lt _ (by decide)

theorem Hdr.WF.canon {h : Hdr} (w : h.WF) : h.canon = h := by
  obtain ⟨h1, h2, h3, h4, h5, h6, h7, h8, h9, h10, h11, h12⟩ := w
  cases h
  simp only [Hdr.canon, Hdr.mk.injEq]
  simp only at *
  refine ⟨?_, ?_, ?_, ?_, ?_, ?_, ?_, ?_, ?_, ?_, ?_, ?_⟩ <;> exact Nat.mod_eq_of_lt (by assumption)

@[simp] theorem Hdr.words_length (h : Hdr) : h.words.length = 4 := rfl

theorem Hdr.words_canon (h : Hdr) : h.canon.words = h.words := by
  simp [Hdr.words, Hdr.canon]

theorem Hdr.ofWords_words {h : Hdr} :
    ∃ a b c d, h.words = [a, b, c, d] ∧ Hdr.ofWords a b c d = h.canon := by
  refine ⟨_, _, _, _, rfl, ?_⟩
  simp only [Hdr.ofWords, Hdr.canon, BitVec.toNat_ofNat, Hdr.mk.injEq]
  refine ⟨?_, ?_, ?_, ?_, ?_, ?_, ?_, ?_, ?_, ?_, ?_, ?_⟩ <;> omega

end Verif.Burp
