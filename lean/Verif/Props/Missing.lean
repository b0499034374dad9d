import Verif.Missing
import Verif.FloatPacker
import Mathlib.Tactic.Linarith
import Mathlib.Tactic.Ring
import Mathlib.Tactic.NormNum
import Mathlib.Tactic.Positivity
import Mathlib.Tactic.FieldSimp

/-!
C42: missing values come back where they were.
-/
namespace Props.Missing
open Verif.Missing

section
variable {α : Type} [LinearOrder α]

/-- What the analysis knows after the elements `l`. -/
structure Known (flag : α) (l : List α) (s : Nat × α × α) : Prop where
  count : s.1 = l.count flag
  none : (∀ y ∈ l, y = flag) → s.2.1 = flag ∧ s.2.2 = flag
  some : (∃ y ∈ l, y ≠ flag) → (s.2.1 ∈ l ∧ s.2.1 ≠ flag ∧ ∀ y ∈ l, y ≠ flag → y ≤ s.2.1) ∧
    (s.2.2 ∈ l ∧ s.2.2 ≠ flag ∧ ∀ y ∈ l, y ≠ flag → s.2.2 ≤ y)

theorem known_step (flag : α) (l : List α) (s : Nat × α × α) (y : α) (h : Known flag l s) :
    Known flag (l ++ [y]) (analStep flag s y) := by
  obtain ⟨c, mx, mn⟩ := s
  obtain ⟨h1, h2, h3⟩ := h
  dsimp only at h1 h2 h3
  unfold analStep
  dsimp only
  by_cases hy : y = flag
  · subst hy
    rw [if_pos rfl]
    refine ⟨by simp [h1], ?_, ?_⟩
    · intro hall
      obtain ⟨e1, e2⟩ := h2 fun z hz => hall z (by simp [hz])
      dsimp only
      rw [e1, e2]; simp
    · rintro ⟨z, hz, hzf⟩
      have hz' : z ∈ l := by
        rcases List.mem_append.1 hz with h | h
        · exact h
        · exact absurd (by simpa using h) hzf
      obtain ⟨⟨a1, a2, a3⟩, b1, b2, b3⟩ := h3 ⟨z, hz', hzf⟩
      dsimp only
      rw [if_neg a2, if_neg b2]
      refine ⟨⟨by simp [a1], a2, ?_⟩, by simp [b1], b2, ?_⟩
      · intro w hw hwf
        rcases List.mem_append.1 hw with h | h
        · exact a3 w h hwf
        · exact absurd (by simpa using h) hwf
      · intro w hw hwf
        rcases List.mem_append.1 hw with h | h
        · exact b3 w h hwf
        · exact absurd (by simpa using h) hwf
  · rw [if_neg hy]
    refine ⟨by simp [h1, hy], fun hall => absurd (hall y (by simp)) hy, fun _ => ?_⟩
    dsimp only
    by_cases hne : ∃ z ∈ l, z ≠ flag
    · obtain ⟨⟨a1, a2, a3⟩, b1, b2, b3⟩ := h3 hne
      rw [if_neg a2, if_neg b2]
      constructor
      · split
        · rename_i hgt
          refine ⟨by simp, hy, fun w hw hwf => ?_⟩
          rcases List.mem_append.1 hw with h | h
          · exact le_trans (a3 w h hwf) (le_of_lt hgt)
          · simp at h; rw [h]
        · rename_i hgt
          refine ⟨by simp [a1], a2, fun w hw hwf => ?_⟩
          rcases List.mem_append.1 hw with h | h
          · exact a3 w h hwf
          · simp at h; rw [h]; exact not_lt.1 hgt
      · split
        · rename_i hgt
          refine ⟨by simp, hy, fun w hw hwf => ?_⟩
          rcases List.mem_append.1 hw with h | h
          · exact le_trans (le_of_lt hgt) (b3 w h hwf)
          · simp at h; rw [h]
        · rename_i hgt
          refine ⟨by simp [b1], b2, fun w hw hwf => ?_⟩
          rcases List.mem_append.1 hw with h | h
          · exact b3 w h hwf
          · simp at h; rw [h]; exact not_lt.1 hgt
    · have hall : ∀ z ∈ l, z = flag := fun z hz => by
        by_cases e : z = flag
        · exact e
        · exact absurd ⟨z, hz, e⟩ hne
      obtain ⟨e1, e2⟩ := h2 hall
      rw [if_pos e1, if_pos e2]
      simp only [gt_iff_lt, lt_self_iff_false, if_false]
      refine ⟨⟨by simp, hy, fun w hw hwf => ?_⟩, by simp, hy, fun w hw hwf => ?_⟩
      all_goals
        rcases List.mem_append.1 hw with h | h
        · exact absurd (hall w h) hwf
        · simp at h; rw [h]

theorem known_foldl (flag : α) (xs l : List α) (s : Nat × α × α) (h : Known flag l s) :
    Known flag (l ++ xs) (xs.foldl (analStep flag) s) := by
  induction xs generalizing l s with
  | nil => simpa using h
  | cons y xs ih =>
    have := ih (l ++ [y]) _ (known_step flag l s y h)
    simpa using this

theorem anal_spec (flag x : α) (xs : List α) : Known flag (x :: xs) (anal flag x xs) := by
  have h : Known flag [x] ((if x = flag then 1 else 0), x, x) := by
    refine ⟨?_, ?_, ?_⟩
    · by_cases e : x = flag <;> simp [e]
    · intro h; exact ⟨h x (by simp), h x (by simp)⟩
    · rintro ⟨y, hy, hf⟩
      simp at hy
      subst hy
      exact ⟨⟨by simp, hf, by simp⟩, by simp, hf, by simp⟩
  exact known_foldl flag xs [x] _ h

/-- Analysis of a field whose largest regular value is known. -/
theorem anal_max {flag x m : α} {xs : List α} (hm : m ∈ x :: xs) (hf : m ≠ flag)
    (h : ∀ y ∈ x :: xs, y ≠ flag → y ≤ m) : (anal flag x xs).2.1 = m := by
  obtain ⟨⟨a1, a2, a3⟩, _⟩ := (anal_spec flag x xs).some ⟨m, hm, hf⟩
  exact le_antisymm (h _ a1 a2) (a3 m hm hf)

/-- A field without missing values is left alone. -/
theorem encode_none (flag : α) (plug : α → α → α) (x : α) (xs : List α) :
    encodeWith flag plug x xs = none ↔ flag ∉ x :: xs := by
  have h := (anal_spec flag x xs).count
  unfold encodeWith
  dsimp only
  rw [h]
  by_cases hc : (x :: xs).count flag = 0
  · simp only [hc, if_true, true_iff]
    exact List.count_eq_zero.1 hc
  · simp only [hc, if_false]
    constructor
    · intro h; cases h
    · intro h; exact absurd (List.count_eq_zero.2 h) hc

/-- Round trip when the plug is larger than all regular values and is not the flag. -/
theorem round_trip (flag : α) (plug : α → α → α) (x : α) (xs : List α) (hx : x ≠ flag)
    (hm : flag ∈ xs)
    (hp : ∀ mx ∈ x :: xs, ∀ mn ∈ x :: xs, mx ≠ flag → mn ≠ flag →
      (∀ y ∈ x :: xs, y ≠ flag → y ≤ mx ∧ mn ≤ y) → mx < plug mx mn ∧ plug mx mn ≠ flag) :
    ∃ out, encodeWith flag plug x xs = some ((x :: xs).count flag, x :: out) ∧
      flag ∉ x :: out ∧ (∀ y ∈ out, y ∈ xs ∨ y = plug (anal flag x xs).2.1 (anal flag x xs).2.2) ∧
      decode flag x out = x :: xs := by
  have hk := anal_spec flag x xs
  obtain ⟨⟨a1, a2, a3⟩, b1, b2, b3⟩ := hk.some ⟨x, by simp, hx⟩
  have hP := hp _ a1 _ b1 a2 b2 fun y hy hf => ⟨a3 y hy hf, b3 y hy hf⟩
  obtain ⟨P, hPd⟩ : ∃ P, P = plug (anal flag x xs).2.1 (anal flag x xs).2.2 := ⟨_, rfl⟩
  rw [← hPd] at hP
  refine ⟨xs.map fun y => if y = flag then P else y, ?_, ?_, ?_, ?_⟩
  · unfold encodeWith
    dsimp only
    rw [hk.count, if_neg, ← hPd]
    · simp [hx]
    · intro hc
      exact List.count_eq_zero.1 hc (by simp [hm])
  · intro h
    rcases List.mem_cons.1 h with h | h
    · exact hx h.symm
    · obtain ⟨y, hy, e⟩ := List.mem_map.1 h
      split at e
      · exact hP.2 e
      · rename_i hn; exact hn e
  · intro y hy
    obtain ⟨z, hz, e⟩ := List.mem_map.1 hy
    split at e
    · exact Or.inr (by rw [← e, hPd])
    · exact Or.inl (by rw [← e]; exact hz)
  · have hlt : ∀ y ∈ x :: xs, y ≠ flag → y < P := fun y hy hf => lt_of_le_of_lt (a3 y hy hf) hP.1
    have hmax : (anal flag x (xs.map fun y => if y = flag then P else y)).2.1 = P := by
      refine anal_max ?_ hP.2 ?_
      · exact List.mem_cons_of_mem _ (List.mem_map.2 ⟨flag, hm, by simp⟩)
      · intro y hy hf
        rcases List.mem_cons.1 hy with h | h
        · rw [h]; exact le_of_lt (hlt x (by simp) hx)
        · obtain ⟨z, hz, e⟩ := List.mem_map.1 h
          split at e
          · rw [e]
          · rename_i hn
            rw [← e]; exact le_of_lt (hlt z (by simp [hz]) hn)
    unfold decode
    dsimp only
    rw [hmax, List.map_map]
    congr 1
    conv_rhs => rw [← List.map_id xs]
    apply List.map_congr_left
    intro y hy
    show (if (if y = flag then P else y) = P then flag else (if y = flag then P else y)) = y
    by_cases hf : y = flag
    · rw [if_pos hf, if_pos rfl, hf]
    · rw [if_neg hf, if_neg (ne_of_lt (hlt y (by simp [hy]) hf))]

end

/-- Largest value that stands for "missing" in a field of `nbits` bits; the values of the field must be
below it.  For signed 16-bit and 8-bit elements the library takes -1, whatever the width. -/
def limit : Kind → Nat → Int
  | .int, nbits => 2 ^ (min nbits 32 - 1) - 1
  | .uint, nbits => 2 ^ (min nbits 32) - 1
  | .ushort, nbits => 2 ^ (min nbits 16) - 1
  | .ubyte, nbits => 2 ^ (min nbits 8) - 1
  | _, _ => -1

theorem shifted (w n : Nat) (h : n < w) : ((2 : Int) ^ w - 1) / 2 ^ (w - n) = 2 ^ n - 1 := by
  have e : (2 : Int) ^ w = 2 ^ n * 2 ^ (w - n) := by rw [← pow_add]; congr 1; omega
  have hp : (0 : Int) < 2 ^ (w - n) := by positivity
  rw [e]
  have : (2 : Int) ^ n * 2 ^ (w - n) - 1 = (2 ^ (w - n) - 1) + 2 ^ (w - n) * (2 ^ n - 1) := by ring
  rw [this, Int.add_mul_ediv_left _ _ (by omega), Int.ediv_eq_zero_of_lt (by omega) (by omega)]
  ring

theorem neg_shifted (n : Nat) : (-1 : Int) / 2 ^ n = -1 := by
  have hp : (0 : Int) < 2 ^ n := by positivity
  rw [Int.ediv_eq_iff_of_pos hp]
  constructor <;> nlinarith

theorem plugU_eq (w n : Nat) (mx : Int) (h : mx < 2 ^ (min n w) - 1) : plugU w n mx = mx + 1 := by
  unfold plugU
  dsimp only
  by_cases hn : n < w
  · rw [if_pos hn, shifted w n hn, if_pos]
    rw [min_eq_left (by omega)] at h
    exact h
  · rw [if_neg hn, if_pos]
    rw [min_eq_right (by omega)] at h
    exact h

theorem half_pred (n : Nat) (hn : 1 ≤ n) : ((2 : Int) ^ n - 1) / 2 = 2 ^ (n - 1) - 1 := by
  obtain ⟨m, rfl⟩ : ∃ m, n = m + 1 := ⟨n - 1, by omega⟩
  rw [pow_succ, Nat.add_sub_cancel]
  omega

theorem plugInt_eq (n : Nat) (mx : Int) (hn : 1 ≤ n) (h : mx < 2 ^ (min n 32 - 1) - 1) :
    plugInt n mx = mx + 1 := by
  unfold plugInt
  dsimp only
  by_cases h32 : n < 32
  · rw [if_pos h32, shifted 32 n h32, half_pred n hn, if_pos]
    rw [min_eq_left (by omega)] at h
    exact h
  · rw [if_neg h32, half_pred 32 (by omega), if_pos]
    rw [min_eq_right (by omega)] at h
    exact h

theorem plugS_eq (w n : Nat) (mx : Int) (h : mx < -1) : plugS w n mx = mx + 1 := by
  unfold plugS
  dsimp only
  rw [neg_shifted]
  have e : (if n < w then (-1 : Int) else -1) / 2 = -1 := by split <;> rfl
  rw [e, if_pos h]

theorem plugOf_eq (k : Kind) (n : Nat) (mx mn : Int) (hk : k ≠ .float ∧ k ≠ .double) (hn : 1 ≤ n)
    (h : mx < limit k n) : plugOf k n mx mn = mx + 1 := by
  cases k
  · exact absurd rfl hk.1
  · exact absurd rfl hk.2
  · exact plugInt_eq n mx hn h
  · exact plugS_eq _ n mx h
  · exact plugS_eq _ n mx h
  · exact plugU_eq _ n mx h
  · exact plugU_eq _ n mx h
  · exact plugU_eq _ n mx h

/-- C42 for integer types, as far as it holds.  For every data type, width and flag: if the field starts
with a regular value, all regular values are below the limit of the width, and none of them is just below
the flag, then encoding counts the missing values and produces a field without flags, of the same kind for
the decoder, from which decoding restores the original.

Missing: fields that start with a missing value (`C42_first_witness`), signed short and byte fields with a
value above -2 (`C42_short_witness`), fields whose largest value is the flag less one
(`C42_flag_witness`).  In all of these the library does not restore the field. -/
theorem C42_integer_partial (datatype nbits : Nat) (isByte isShort isDouble : Bool) (k : Kind)
    (hk : encKind datatype nbits isByte isShort isDouble = some k) (hk' : k ≠ .float ∧ k ≠ .double)
    (hn : 1 ≤ nbits) (flag x : Int) (xs : List Int) (hx : x ≠ flag) (hm : flag ∈ xs)
    (hroom : ∀ y ∈ x :: xs, y ≠ flag → y < limit k nbits ∧ y + 1 ≠ flag) :
    decKind datatype isByte isShort isDouble = some k ∧
    ∃ out, encodeWith flag (plugOf k nbits) x xs = some ((x :: xs).count flag, x :: out) ∧
      flag ∉ x :: out ∧ (∀ y ∈ out, y ≤ limit k nbits) ∧ decode flag x out = x :: xs := by
  refine ⟨?_, ?_⟩
  · revert hk
    unfold encKind decKind
    dsimp only
    by_cases h0 : datatype % 16 = 0 ∨ datatype % 16 = 3 ∨ datatype % 16 = 7 ∨ datatype % 16 = 8
    · rw [if_pos h0]; intro h; cases h
    · rw [if_neg h0, if_neg h0]
      by_cases h1 : datatype % 16 = 1 ∨ datatype % 16 = 5 ∨ datatype % 16 = 6
      · rw [if_pos h1]
        intro h
        split at h
        · cases h; exact absurd rfl hk'.2
        · split at h
          · cases h
          · cases h; exact absurd rfl hk'.1
      · rw [if_neg h1, if_neg h1]
        exact fun h => h
  · obtain ⟨out, h1, h2, h3, h4⟩ := round_trip flag (plugOf k nbits) x xs hx hm (by
      intro mx hmx mn _ hf _ _
      rw [plugOf_eq k nbits mx mn hk' hn (hroom mx hmx hf).1]
      exact ⟨by omega, (hroom mx hmx hf).2⟩)
    refine ⟨out, h1, h2, ?_, h4⟩
    intro y hy
    obtain ⟨⟨a1, a2, _⟩, _⟩ := (anal_spec flag x xs).some ⟨x, by simp, hx⟩
    rcases h3 y hy with h | h
    · by_cases hf : y = flag
      · exact absurd (by rw [← hf]; exact List.mem_cons_of_mem _ hy) h2
      · exact le_of_lt (hroom y (by simp [h]) hf).1
    · rw [h, plugOf_eq k nbits _ _ hk' hn (hroom _ a1 a2).1]
      have := (hroom _ a1 a2).1
      omega

/-- A field of 32-bit signed integers packed with 8 bits. -/
example : encKind 4 8 false false false = some .int ∧
    (∀ y ∈ [(-100 : Int), -2147483648, 126, -2147483648, 7], y ≠ -2147483648 → y < limit .int 8 ∧ y + 1 ≠ -2147483648) ∧
    encodeWith (-2147483648) (plugOf .int 8) (-100) [-2147483648, 126, -2147483648, 7] =
      some (2, [-100, 127, 126, 127, 7]) := by
  refine ⟨rfl, ?_, by decide⟩
  intro y hy hf
  simp only [List.mem_cons, List.not_mem_nil, or_false] at hy
  rcases hy with rfl | rfl | rfl | rfl | rfl <;> first | exact absurd rfl hf | decide

/-- Signed shorts, all below -1. -/
example : encKind 68 16 false true false = some .short ∧
    encodeWith (-32768) (plugOf .short 16) (-9) [-32768, -5] = some (1, [-9, -4, -5]) ∧
    decode (-32768) (-9) [-4, -5] = [-9, -32768, (-5 : Int)] := by
  decide

/-- The first element is never restored. -/
theorem C42_first_witness :
    encodeWith (-2147483648) (plugOf .int 16) (-2147483648) [3, -2147483648, 5] = some (2, [6, 3, 6, 5]) ∧
    decode (-2147483648) 6 [3, 6, 5] = [6, 3, -2147483648, (5 : Int)] := by
  decide

/-- No field that starts with a missing value is restored, whatever the type. -/
theorem C42_first {α : Type} [LinearOrder α] (flag : α) (plug : α → α → α) (hp : ∀ a b, plug a b ≠ flag)
    (xs : List α) : ∃ P out, encodeWith flag plug flag xs = some ((flag :: xs).count flag, P :: out) ∧
      decode flag P out ≠ flag :: xs := by
  have hc : (anal flag flag xs).1 ≠ 0 := by rw [(anal_spec flag flag xs).count]; simp
  refine ⟨plug (anal flag flag xs).2.1 (anal flag flag xs).2.2,
    xs.map fun y => if y = flag then plug (anal flag flag xs).2.1 (anal flag flag xs).2.2 else y, ?_, ?_⟩
  · unfold encodeWith
    dsimp only
    rw [if_neg hc, (anal_spec flag flag xs).count]
    simp
  · unfold decode
    intro h
    exact hp _ _ (List.cons.inj h).1

/-- Signed shorts and bytes: missing values become -1, and the largest value comes back as missing. -/
theorem C42_short_witness :
    encodeWith (-32768) (plugOf .short 12) 3 [-32768, 5] = some (1, [3, -1, 5]) ∧
    decode (-32768) 3 [-1, 5] = [3, -1, (-32768 : Int)] ∧
    encodeWith (-128) (plugOf .byte 8) 3 [-128, 5] = some (1, [3, -1, 5]) ∧
    decode (-128) 3 [-1, 5] = [3, -1, (-128 : Int)] := by
  decide

/-- The plug may be the flag itself: then the largest regular values come back as missing. -/
theorem C42_flag_witness :
    encodeWith 9999 (plugOf .uint 16) 3 [9999, 9998] = some (1, [3, 9999, (9998 : Int)]) ∧
    decode 9999 3 [9999, 9998] = [3, 9999, (9999 : Int)] := by
  decide

/-- Without room (all 8-bit values in use) the missing values cannot be told from the largest value. -/
theorem C42_room_witness :
    encodeWith 4294967295 (plugOf .uint 8) 3 [4294967295, 255] = some (1, [3, 255, (255 : Int)]) ∧
    decode 4294967295 3 [255, 255] = [3, 4294967295, (4294967295 : Int)] := by
  decide

/-- The decoder treats 64-bit IEEE fields written without the double precision switch as single precision. -/
theorem C42_kind_witness : encKind 5 64 false false false = some .double ∧
    decKind 5 false false false = some .float := by
  decide

/-- Roundings of floating point arithmetic without overflow and underflow: monotone, relative error at most
2^-24, exact on the numbers of the type of the field (`Rep`). -/
structure Good (R : Rounding) (Rep : ℚ → Prop) : Prop where
  mono : ∀ a b, a ≤ b → R.r a ≤ R.r b
  exact : ∀ a, Rep a → R.r a = a ∧ R.ri a = a
  zero : Rep 0
  double : ∀ a, Rep a → Rep (a * 2)
  monoI : ∀ a b, a ≤ b → R.ri a ≤ R.ri b
  error : ∀ a, |R.r a - a| ≤ |a| / 2 ^ 24
  errorI : ∀ a, |R.ri a - a| ≤ |a| / 2 ^ 24
  errorC : ∀ a, |R.rc a - a| ≤ |a| / 2 ^ 24

theorem factor_ge (n : Nat) (hn : n ≤ 8) : (1 / 100 : ℚ) ≤ factor.getD n 0 := by
  have : n = 0 ∨ n = 1 ∨ n = 2 ∨ n = 3 ∨ n = 4 ∨ n = 5 ∨ n = 6 ∨ n = 7 ∨ n = 8 := by omega
  rcases this with rfl | rfl | rfl | rfl | rfl | rfl | rfl | rfl | rfl <;> norm_num [factor]

theorem round_ge {f : ℚ → ℚ} (h : ∀ a, |f a - a| ≤ |a| / 2 ^ 24) {a : ℚ} (ha : 0 ≤ a) :
    a * (99 / 100) ≤ f a := by
  have := abs_le.1 (h a)
  rw [abs_of_nonneg ha] at this
  have h1 := this.1
  linarith

theorem plugReal_gt {R : Rounding} {Rep : ℚ → Prop} (hR : Good R Rep) (nbits : Nat) (mx mn : ℚ)
    (hmx : Rep mx) (hle : mn ≤ mx) (h : -mx ≤ 40000 * (mx - mn)) : mx < plugReal R nbits mx mn := by
  unfold plugReal
  dsimp only
  obtain ⟨f, hf, hfd⟩ : ∃ f, (98 / 10000 : ℚ) ≤ f ∧
      (if nbits > 8 then R.rc (1/100) else R.rc (factor.getD nbits 0)) = f := by
    refine ⟨_, ?_, rfl⟩
    split
    · have := round_ge hR.errorC (a := 1 / 100) (by norm_num)
      linarith
    · have h1 := factor_ge nbits (by omega)
      have := round_ge hR.errorC (a := factor.getD nbits 0) (by linarith)
      linarith
  rw [hfd]
  have hd : 0 ≤ mx - mn := by linarith
  have h1 := round_ge hR.error hd
  have h2 : (mx - mn) * (99 / 100) * (98 / 10000) ≤ R.r (mx - mn) * f :=
    mul_le_mul h1 hf (by norm_num) (by linarith)
  have h3 : 0 ≤ R.r (mx - mn) * f := by
    have : 0 ≤ (mx - mn) * (99 / 100) * (98 / 10000) := by positivity
    linarith
  have h4 := round_ge hR.errorI h3
  obtain ⟨y, hy⟩ : ∃ y, R.ri (R.r (mx - mn) * f) = y := ⟨_, rfl⟩
  rw [hy] at h4 ⊢
  have hy1 : (mx - mn) * (96 / 10000) ≤ y := by nlinarith
  have hy0 : 0 ≤ y := by nlinarith
  have hge : mx ≤ R.r (R.ri (mx + y)) := by
    have e1 := hR.monoI mx (mx + y) (by linarith)
    rw [(hR.exact mx hmx).2] at e1
    have e2 := hR.mono _ _ e1
    rwa [(hR.exact mx hmx).1] at e2
  by_cases hp : R.r (R.ri (mx + y)) = mx
  · rw [if_pos hp]
    by_cases h0 : mx = 0
    · rw [if_pos h0, h0]; norm_num
    · rw [if_neg h0, (hR.exact _ (hR.double mx hmx)).1]
      have hpos : 0 < mx := by
        by_cases hneg : mx < 0
        · exfalso
          have hyb : -mx / 40000 * (96 / 10000) ≤ y := by
            have : -mx / 40000 ≤ mx - mn := by linarith
            nlinarith
          by_cases hz : mx + y ≤ 0
          · have a1 := (abs_le.1 (hR.errorI (mx + y))).1
            rw [abs_of_nonpos hz] at a1
            have hzz : R.ri (mx + y) ≤ 0 := by
              have := hR.monoI _ _ hz
              rwa [(hR.exact 0 hR.zero).2] at this
            have a2 := (abs_le.1 (hR.error (R.ri (mx + y)))).1
            rw [abs_of_nonpos hzz, hp] at a2
            norm_num at a1 a2
            linarith
          · have : (0 : ℚ) ≤ R.r (R.ri (mx + y)) := by
              have e1 := hR.monoI 0 (mx + y) (by linarith)
              rw [(hR.exact 0 hR.zero).2] at e1
              have e2 := hR.mono _ _ e1
              rwa [(hR.exact 0 hR.zero).1] at e2
            linarith
        · rcases lt_or_eq_of_le (not_lt.1 hneg) with h | h
          · exact h
          · exact absurd h.symm h0
      linarith
  · rw [if_neg hp]
    exact lt_of_le_of_ne hge (Ne.symm hp)

/-- C42 for floating point types, as far as it holds: if the field starts with a regular value, the field is
not one of negative values that are all nearly the same (two regular values `a`, `b` with
`-a ≤ 40000 (a - b)`; any value `a ≥ 0` will do), and no value that the encoder may choose is the flag, then
decoding restores the field.

Missing: fields that start with a missing value, and fields of nearly constant negative values, which the
library does not restore (`C42_negative_witness`). -/
theorem C42_real_partial {R : Rounding} {Rep : ℚ → Prop} (hR : Good R Rep) (nbits : Nat) (flag x : ℚ)
    (xs : List ℚ) (hrep : ∀ y ∈ x :: xs, Rep y) (hx : x ≠ flag) (hm : flag ∈ xs)
    (hneg : ∃ a ∈ x :: xs, ∃ b ∈ x :: xs, a ≠ flag ∧ b ≠ flag ∧ -a ≤ 40000 * (a - b))
    (hplug : ∀ mx ∈ x :: xs, ∀ mn ∈ x :: xs, plugReal R nbits mx mn ≠ flag) :
    ∃ out, encodeWith flag (plugReal R nbits) x xs = some ((x :: xs).count flag, x :: out) ∧
      flag ∉ x :: out ∧ decode flag x out = x :: xs := by
  obtain ⟨out, h1, h2, _, h4⟩ := round_trip flag (plugReal R nbits) x xs hx hm (by
    intro mx hmx mn hmn hf _ hall
    refine ⟨plugReal_gt hR nbits mx mn (hrep mx hmx) (hall mx hmx hf).2 ?_, hplug mx hmx mn hmn⟩
    obtain ⟨a, ha, b, hb, haf, hbf, hab⟩ := hneg
    have e1 := (hall a ha haf).1
    have e2 := (hall b hb hbf).2
    linarith)
  exact ⟨out, h1, h2, h4⟩

/-- Exact arithmetic is one of the roundings covered. -/
theorem good_exact : Good ⟨id, id, id⟩ (fun _ => True) :=
  ⟨fun _ _ h => h, fun _ _ => ⟨rfl, rfl⟩, trivial, fun _ _ => trivial, fun _ _ h => h,
    fun a => by simp; positivity, fun a => by simp; positivity, fun a => by simp; positivity⟩

example : encodeWith (-1000000) (plugReal ⟨id, id, id⟩ 12) (-7) [-1000000, -3] = some (1, [-7, -74/25, -3]) ∧
    decode (-1000000) (-7) [-74/25, -3] = [-7, -1000000, (-3 : ℚ)] ∧
    -(-3 : ℚ) ≤ 40000 * (-3 - -7) := by
  decide +kernel

/-- A constant negative field: the plug, twice the value, is smaller, and decoding flags the regular values
instead of the missing ones. -/
theorem C42_negative_witness (R : Rounding) (Rep : ℚ → Prop) (hR : Good R Rep) (h5 : Rep (-5)) (nbits : Nat) :
    encodeWith (-1000000) (plugReal R nbits) (-5) [-1000000, -5] = some (1, [-5, -10, -5]) ∧
    decode (-1000000) (-5) [-10, -5] = [-5, -10, (-1000000 : ℚ)] := by
  refine ⟨?_, by decide +kernel⟩
  have ha : anal (-1000000 : ℚ) (-5) [-1000000, -5] = (1, -5, -5) := by decide +kernel
  have hp : plugReal R nbits (-5) (-5) = -10 := by
    unfold plugReal
    dsimp only
    rw [sub_self, (hR.exact 0 hR.zero).1, zero_mul, (hR.exact 0 hR.zero).2, add_zero, (hR.exact _ h5).2,
      (hR.exact _ h5).1, if_pos rfl, if_neg (by norm_num), (hR.exact _ (hR.double _ h5)).1]
    norm_num
  unfold encodeWith
  rw [ha]
  dsimp only
  rw [hp]
  norm_num

/-- With one bit the plug does not survive packing: the field 0, missing, 1 is encoded as 0, 2.1, 1 (in
single precision), and the float packer gives the last two the same token. -/
theorem C42_packed_witness : plugReal ⟨id, id, id⟩ 1 1 0 = 21 / 10 ∧
    Verif.FloatPacker.tokens 3 (Verif.FloatPacker.pack 0#32 [0x40066666#32, 0x3f800000#32] 1).stream = [0, 1, 1] := by
  constructor
  · decide +kernel
  · decide +kernel

end Props.Missing
