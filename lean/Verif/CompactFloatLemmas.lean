import Verif.CompactFloat
import Verif.CompactIntegerLemmas
import Verif.BurpValues
import Verif.Props.FloatPacker

namespace Verif.CompactFloat

open Verif.FloatPacker Props.FloatPacker
open Verif.Burp (memBits_inj)

theorem toNat_or_shift (a b : W) (i : Nat) (hb : b.toNat < 2 ^ i) (ha : a.toNat * 2 ^ i < 2 ^ 32) :
    ((a <<< i) ||| b).toNat = a.toNat * 2 ^ i + b.toNat := by
  rw [BitVec.toNat_or, BitVec.toNat_shiftLeft, Nat.shiftLeft_eq, Nat.mod_eq_of_lt ha, ← Nat.shiftLeft_eq,
    Nat.shiftLeft_add_eq_or_of_lt hb]

theorem low_bits (n k : Nat) (hk : k ≤ 32) : ((BitVec.ofNat 32 n <<< k) >>> k).toNat = n % 2 ^ (32 - k) := by
  rw [BitVec.toNat_ushiftRight, BitVec.toNat_shiftLeft, BitVec.toNat_ofNat, Nat.shiftLeft_eq, Nat.shiftRight_eq_div_pow]
  have e : 2 ^ 32 = 2 ^ (32 - k) * 2 ^ k := by rw [← Nat.pow_add]; congr 1; omega
  rw [e, Nat.mul_mod_mul_right, Nat.mul_div_cancel _ (by positivity), Nat.mod_mul_right_mod]

theorem word0_fields (s m : Bool) (n : Nat) :
    field (word0 s m n) 0 20 = n % 2 ^ 20 ∧
      field (word0 s m n) 20 12 = (if s then (if m then 0x7ef else 0x7ff) else (if m then 0xfef else 0xfff)) := by
  have hl := low_bits n 12 (by decide)
  have h : (word0 s m n).toNat =
      (if s then (if m then 0x7ef else 0x7ff) else (if m then 0xfef else 0xfff)) * 2 ^ 20 + n % 2 ^ 20 := by
    unfold word0
    rw [toNat_or_shift, hl]
    · cases s <;> cases m <;> rfl
    · rw [hl]; exact Nat.mod_lt _ (by decide)
    · cases s <;> cases m <;> decide
  unfold field
  rw [h]
  have := Nat.mod_lt n (show 0 < 2 ^ 20 by decide)
  cases s <;> cases m <;> constructor <;> simp only [if_true, if_false, Bool.false_eq_true] <;> omega

theorem word3_fields (b n : Nat) (hb : b ≤ 32) :
    field (word3 b n) 0 8 = n / 2 ^ 20 % 2 ^ 8 ∧ field (word3 b n) 8 8 = b := by
  have hl : ((BitVec.ofNat 32 n <<< 4) >>> 24).toNat = n / 2 ^ 20 % 2 ^ 8 := by
    rw [BitVec.toNat_ushiftRight, BitVec.toNat_shiftLeft, BitVec.toNat_ofNat, Nat.shiftLeft_eq, Nat.shiftRight_eq_div_pow]
    omega
  have h : (word3 b n).toNat = b * 2 ^ 8 + n / 2 ^ 20 % 2 ^ 8 := by
    unfold word3
    rw [toNat_or_shift, hl]
    · rw [BitVec.toNat_ofNat, Nat.mod_eq_of_lt (by omega)]
    · rw [hl]; exact Nat.mod_lt _ (by decide)
    · rw [BitVec.toNat_ofNat, Nat.mod_eq_of_lt (by omega)]; omega
  unfold field
  rw [h]
  constructor <;> omega

theorem lead_lt (x : F32) : lead x < 278 := by
  unfold lead
  by_cases h : (val x).natAbs = 0
  · rw [h]; decide
  · rw [Nat.log2_lt h]
    have := val_lt x 255 (by decide) (by have := expo_lt x; omega)
    calc (val x).natAbs < _ := this
      _ = 2 ^ 278 := by rw [← Nat.pow_add]

theorem word1_fields (mn : F32) (b : Nat) (e : Int) (h0 : 0 ≤ e - b + 4096) (h1 : e - b + 4096 < 2 ^ 16) :
    field (word1 mn b e) 0 1 = (if val mn < 0 then 1 else 0) ∧
      field (word1 mn b e) 4 12 = (if val mn = 0 then 0x111 else lead mn + 827) ∧
      (field (word1 mn b e) 16 16 : Int) = e - b + 4096 := by
  have hl := lead_lt mn
  have hA : (BitVec.ofInt 32 (e - b) + 4096#32).toNat = (e - b + 4096).toNat := by
    rw [show (4096#32 : W) = BitVec.ofInt 32 4096 from rfl, ← BitVec.ofInt_add, BitVec.toNat_ofInt]
    rw [Int.emod_eq_of_lt h0 (by omega)]
  have hE : (if val mn = 0 then 0x111#32 else BitVec.ofNat 32 (lead mn + 827)).toNat =
      (if val mn = 0 then 0x111 else lead mn + 827) := by
    split
    · rfl
    · rw [BitVec.toNat_ofNat, Nat.mod_eq_of_lt (by omega)]
  have hS : (if val mn < 0 then 1#32 else 0#32).toNat = (if val mn < 0 then 1 else 0) := by split <;> rfl
  have hE' : (if val mn = 0 then 0x111 else lead mn + 827) < 2 ^ 11 := by split <;> omega
  have hS' : (if val mn < 0 then 1 else 0) < 2 := by split <;> omega
  have h : (word1 mn b e).toNat = (e - b + 4096).toNat * 2 ^ 16 +
      ((if val mn = 0 then 0x111 else lead mn + 827) * 2 ^ 4 + (if val mn < 0 then 1 else 0)) := by
    unfold word1
    have hin := toNat_or_shift (if val mn = 0 then 0x111#32 else BitVec.ofNat 32 (lead mn + 827))
      (if val mn < 0 then 1#32 else 0#32) 4 (by rw [hS]; omega) (by rw [hE]; omega)
    rw [hE, hS] at hin
    rw [toNat_or_shift, hin, hA]
    · rw [hin]; omega
    · rw [hA]; omega
  unfold field
  rw [h]
  refine ⟨by omega, by omega, ?_⟩
  have : ((e - b + 4096).toNat * 2 ^ 16 +
      ((if val mn = 0 then 0x111 else lead mn + 827) * 2 ^ 4 + (if val mn < 0 then 1 else 0))) / 2 ^ 16 % 2 ^ 16 =
      (e - b + 4096).toNat := by omega
  rw [this]
  omega

theorem lead_normal (x : F32) (h : 1 ≤ expo x) : lead x = expo x + 22 ∧ mant x = frac x := by
  have hf := frac_lt x
  have hv : (val x).natAbs = (2 ^ 23 + frac x) * 2 ^ (expo x - 1) := by rw [natAbs_val, if_neg (by omega)]
  have hp : 0 < 2 ^ (expo x - 1) := by positivity
  have hl : lead x = expo x + 22 := by
    unfold lead
    rw [hv, Nat.log2_eq_iff (Nat.mul_pos (by omega) hp).ne']
    rw [show expo x + 22 + 1 = 24 + (expo x - 1) by omega, show expo x + 22 = 23 + (expo x - 1) by omega, Nat.pow_add, Nat.pow_add]
    exact ⟨Nat.mul_le_mul_right _ (by omega), Nat.mul_lt_mul_of_pos_right (by omega) hp⟩
  refine ⟨hl, ?_⟩
  unfold mant
  rw [hl, hv]
  rw [show expo x + 22 = 23 + (expo x - 1) by omega, Nat.pow_add]
  rw [show (2 ^ 23 + frac x) * 2 ^ (expo x - 1) * 2 ^ 23 = (2 ^ 23 + frac x) * (2 ^ 23 * 2 ^ (expo x - 1)) by
    rw [Nat.mul_assoc, Nat.mul_comm (2 ^ (expo x - 1))]]
  rw [Nat.mul_div_cancel _ (by positivity)]
  omega

theorem neg_iff (x : F32) (h : val x ≠ 0) : neg x = decide (val x < 0) := by
  unfold val at h ⊢
  dsimp only at h ⊢
  cases hn : neg x
  · simp only [Bool.false_eq_true, if_false]
    symm
    rw [decide_eq_false_iff_not]
    omega
  · rw [hn] at h
    simp only [if_true] at h ⊢
    symm
    rw [decide_eq_true_iff]
    omega

/-- The decoder finds the minimum in the header. -/
theorem headMin_eq (mn : F32) (b : Nat) (e : Int) (h0 : 0 ≤ e - b + 4096) (h1 : e - b + 4096 < 2 ^ 16)
    (hn : val mn = 0 ∨ 1 ≤ expo mn) : headMin (word1 mn b e) (word2 mn) = fval mn := by
  obtain ⟨f0, f1, -⟩ := word1_fields mn b e h0 h1
  unfold headMin
  rw [f0, f1]
  by_cases hz : val mn = 0
  · rw [if_pos (Or.inl (by unfold word2; rw [if_pos hz]; rfl))]
    unfold fval
    rw [hz]
    simp
  · have hx : 1 ≤ expo mn := by tauto
    obtain ⟨hl, hm⟩ := lead_normal mn hx
    have hf := frac_lt mn
    have he := expo_lt mn
    have hw : (word2 mn).toNat = 2 ^ 31 + frac mn * 2 ^ 8 := by
      unfold word2
      rw [if_neg hz, hm]
      have hfn : (BitVec.ofNat 32 (frac mn)).toNat = frac mn := by rw [BitVec.toNat_ofNat, Nat.mod_eq_of_lt (by omega)]
      rw [BitVec.toNat_or, BitVec.toNat_shiftLeft, hfn, Nat.shiftLeft_eq, Nat.mod_eq_of_lt (show frac mn * 2 ^ 8 < 2 ^ 32 by omega)]
      have := Nat.shiftLeft_add_eq_or_of_lt (a := 1) (b := frac mn * 2 ^ 8) (i := 31) (by omega)
      rw [Nat.shiftLeft_eq] at this
      exact this.symm.trans (by omega)
    have hw0 : word2 mn ≠ 0 := by
      intro h
      rw [h] at hw
      simp at hw
      omega
    rw [if_neg hz, if_neg (by rw [hl]; intro h; rcases h with h | h; exact hw0 h; omega)]
    have hfr : field (word2 mn) 8 23 = frac mn := by unfold field; rw [hw]; omega
    rw [hfr, hl, show (expo mn + 22 + 827 + 127 - 976) % 256 = expo mn by omega]
    have hs : ((if val mn < 0 then 1 else 0) == 1) = neg mn := by
      rw [neg_iff mn hz]
      by_cases h : val mn < 0 <;> simp [h]
    rw [hs]
    unfold fval
    congr 2
    rw [val_mk _ _ _ hx he hf]
    unfold val
    dsimp only
    rw [if_neg (show ¬ expo mn = 0 by omega)]
    cases neg mn <;> simp

/-! ### The header under the stream -/

theorem putHeader_get {mem m : List W} {hp : Nat} {w0 w1 w2 w3 : W} (h : putHeader mem hp w0 w1 w2 w3 = some m) :
    m.length = mem.length ∧ m[hp]? = some w0 ∧ m[hp + 1]? = some w1 ∧ m[hp + 2]? = some w2 ∧ m[hp + 3]? = some w3 ∧
      ∀ i, i < hp ∨ hp + 3 < i → m[i]? = mem[i]? := by
  unfold putHeader at h
  split at h
  · injection h with h
    subst h
    refine ⟨by simp, ?_, ?_, ?_, ?_, ?_⟩
    · rw [List.getElem?_set_ne (by omega), List.getElem?_set_ne (by omega), List.getElem?_set_ne (by omega),
        List.getElem?_set_self (by omega)]
    · rw [List.getElem?_set_ne (by omega), List.getElem?_set_ne (by omega), List.getElem?_set_self (by simp; omega)]
    · rw [List.getElem?_set_ne (by omega), List.getElem?_set_self (by simp; omega)]
    · rw [List.getElem?_set_self (by simp; omega)]
    · intro i hi
      rw [List.getElem?_set_ne (by omega), List.getElem?_set_ne (by omega), List.getElem?_set_ne (by omega),
        List.getElem?_set_ne (by omega)]
  · cases h

theorem take_words {d m : List W} {pos k : Nat} (h : (memBits d).take pos = (memBits m).take pos) (hk : 32 * k ≤ pos) :
    d.take k = m.take k := by
  apply memBits_inj
  rw [← memBits_take, ← memBits_take]
  have := congrArg (List.take (32 * k)) h
  rwa [List.take_take, List.take_take, Nat.min_eq_left hk] at this

theorem word_kept {d m : List W} {pos k : Nat} (h : (memBits d).take pos = (memBits m).take pos) (hk : 32 * (k + 1) ≤ pos) :
    d[k]? = m[k]? := by
  have := take_words h hk
  have := congrArg (fun l => l[k]?) this
  simp only [List.getElem?_take] at this
  simpa using this

theorem top_kept {d m : List W} {pos k : Nat} {w w' : W} (h : (memBits d).take pos = (memBits m).take pos)
    (hk : 32 * k + 24 ≤ pos) (hw : m[k]? = some w) (hw' : d[k]? = some w') : w'.toNat / 2 ^ 8 = w.toNat / 2 ^ 8 := by
  have e : ∀ (l : List W) (v : W), l[k]? = some v → (((memBits l).take pos).drop (32 * k)).take 24 = toBits 24 (v.toNat / 2 ^ 8) := by
    intro l v hv
    rw [List.drop_take, memBits_drop, List.take_take, Nat.min_eq_left (by omega)]
    have hlt : k < l.length := (List.getElem?_eq_some_iff.1 hv).1
    rw [List.drop_eq_getElem_cons hlt, memBits_cons, List.take_append_of_le_length (by simp)]
    rw [(List.getElem?_eq_some_iff.1 hv).2]
    have := toBits_take 24 8 v.toNat
    rw [Nat.shiftRight_eq_div_pow] at this
    exact this
  have h1 := e m w hw
  have h2 := e d w' hw'
  rw [h] at h2
  have := toBits_inj (n := 24) (by have := w'.isLt; omega) (by have := w.isLt; omega) (h2.symm.trans h1)
  exact this

end Verif.CompactFloat
