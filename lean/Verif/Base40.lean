/-! # Model of `src/base/cvt_base40.f`

Fortran default integers are 32 bits wide and wrap around.  The power `IBASE**POWER` is computed by
repeated multiplication in the same arithmetic. -/

namespace Verif.Base40

/-- The table `BSE40` (cvt_base40.f:44-48 and 97-101). -/
def alphabet : List Char := "0123456789ABCDEFGHIJKLMNOPQRSTUVWXYZ/?: ".toList

/-- Two's complement wrap-around to 32 bits. -/
def wrap (x : Int) : Int := Int.bmod x (2 ^ 32)

/-- The inner loop on `IORD` and what follows it (cvt_base40.f:118-129): ordinal of a character, 36
when it is not in the table. -/
def ordinal (c : Char) : Nat := if c ∈ alphabet then alphabet.idxOf c else 36

/-- The loop `DO 300` of `CTOB40` (cvt_base40.f:112-130); `v` is `VALUE`. -/
def ctob40Loop : List Char → Int → Int
  | [], v => v
  | c :: cs, v => ctob40Loop cs (wrap (v + wrap (ordinal c * wrap (40 ^ cs.length))))

/-- `CTOB40` (cvt_base40.f:72-135). -/
def ctob40 (s : List Char) : Int := ctob40Loop s 0

/-- The loop `DO 300` of `B40TOC` (cvt_base40.f:58-67), `k` characters left to fill from the right,
`acc` already filled.  `none`: the table is indexed out of bounds (negative word). -/
def b40tocLoop : Nat → Int → List Char → Option (List Char)
  | 0, _, acc => some acc
  | k+1, word, acc =>
    let idvdn := word.tdiv 40
    let irmdr := word - idvdn * 40
    if 0 ≤ irmdr then
      match alphabet[irmdr.toNat]? with
      | none => none
      | some c => b40tocLoop k idvdn (c :: acc)
    else none

/-- `B40TOC` (cvt_base40.f:21-70). -/
def b40toc (iwrd : Int) : Option (List Char) := b40tocLoop 8 iwrd []

/-! ## Lemmas -/

/-- The number a string stands for. -/
def value (s : List Char) : Nat := s.foldl (fun v c => 40 * v + alphabet.idxOf c) 0

theorem alphabet_length : alphabet.length = 40 := by decide

theorem value_snoc (s : List Char) (c : Char) : value (s ++ [c]) = 40 * value s + alphabet.idxOf c := by
  simp [value]

theorem foldl_shift (s : List Char) (v : Nat) :
    s.foldl (fun v c => 40 * v + alphabet.idxOf c) v = v * 40 ^ s.length + value s := by
  induction s generalizing v with
  | nil => simp [value]
  | cons c s ih =>
    simp only [List.foldl_cons, List.length_cons, value]
    rw [ih, ih (40 * 0 + _)]
    rw [Nat.pow_succ, Nat.add_mul, Nat.mul_zero, Nat.zero_add]
    rw [show 40 * v * 40 ^ s.length = v * (40 ^ s.length * 40) by ac_rfl]
    omega

theorem value_cons (c : Char) (s : List Char) : value (c :: s) = alphabet.idxOf c * 40 ^ s.length + value s := by
  have := foldl_shift s (alphabet.idxOf c)
  simpa [value] using this

theorem idxOf_lt {c : Char} (h : c ∈ alphabet) : alphabet.idxOf c < 40 := by
  rw [← alphabet_length]; exact List.idxOf_lt_length_of_mem h

theorem value_lt (s : List Char) (h : ∀ c ∈ s, c ∈ alphabet) : value s < 40 ^ s.length := by
  induction s with
  | nil => simp [value]
  | cons c s ih =>
    rw [value_cons, List.length_cons, Nat.pow_succ]
    have h1 := ih (fun c hc => h c (by simp [hc]))
    have h2 := idxOf_lt (h c (by simp))
    have : alphabet.idxOf c * 40 ^ s.length ≤ 39 * 40 ^ s.length := Nat.mul_le_mul_right _ (by omega)
    omega

theorem ctob40Loop_spec (s : List Char) (h : ∀ c ∈ s, c ∈ alphabet) (v : Int) (hv : wrap v = v) :
    ctob40Loop s v = wrap (v + value s) := by
  induction s generalizing v with
  | nil => simp [ctob40Loop, value, hv]
  | cons c s ih =>
    rw [ctob40Loop, ih (fun c hc => h c (by simp [hc])) _ (by simp [wrap]), value_cons]
    simp only [ordinal, h c (by simp), if_true, wrap]
    simp only [Int.mul_bmod_bmod, Int.add_bmod_bmod, Int.bmod_add_bmod]
    congr 1
    rw [Int.natCast_add, Int.natCast_mul, Int.natCast_pow, Int.add_assoc]
    rfl

theorem ctob40_eq (s : List Char) (h : ∀ c ∈ s, c ∈ alphabet) (hv : value s < 2 ^ 31) : ctob40 s = value s := by
  rw [ctob40, ctob40Loop_spec s h 0 (by decide), wrap, Int.zero_add]
  apply Int.bmod_eq_of_le <;> omega

theorem b40tocLoop_zero (k : Nat) (acc : List Char) :
    b40tocLoop k 0 acc = some (List.replicate k '0' ++ acc) := by
  induction k generalizing acc with
  | zero => rfl
  | succ k ih =>
    have : alphabet[0]? = some '0' := by decide
    simp only [b40tocLoop, Int.zero_tdiv, Int.zero_mul, Int.sub_zero, Int.le_refl, if_true, Int.toNat_zero, this, ih]
    rw [List.replicate_succ']; simp

theorem b40tocLoop_spec (s : List Char) (h : ∀ c ∈ s, c ∈ alphabet) (k : Nat) (hk : s.length ≤ k) (acc : List Char) :
    b40tocLoop k (value s) acc = some (List.replicate (k - s.length) '0' ++ s ++ acc) := by
  induction hs : s.reverse generalizing s k acc with
  | nil =>
    have : s = [] := by simpa using hs
    subst this
    simp [value, b40tocLoop_zero]
  | cons c r ih =>
    have hsr : s = r.reverse ++ [c] := by
      have := congrArg List.reverse hs; simpa using this
    subst hsr
    have hc : c ∈ alphabet := h c (by simp)
    have hlt := idxOf_lt hc
    simp only [List.length_append, List.length_reverse, List.length_cons, List.length_nil] at hk
    obtain ⟨k, rfl⟩ : ∃ k', k = k' + 1 := ⟨k - 1, by omega⟩
    have hd : ((value (r.reverse ++ [c]) : Nat) : Int).tdiv 40 = (value r.reverse : Int) := by
      rw [value_snoc, Int.tdiv_eq_ediv_of_nonneg (by omega)]
      omega
    have hr : ((value (r.reverse ++ [c]) : Nat) : Int) - (value r.reverse : Int) * 40 = (alphabet.idxOf c : Int) := by
      rw [value_snoc]; omega
    have hget : alphabet[alphabet.idxOf c]? = some c := by
      rw [List.getElem?_eq_getElem (by rw [alphabet_length]; exact hlt)]
      simp
    simp only [b40tocLoop, hd, hr, Int.natCast_nonneg, if_true, Int.toNat_natCast, hget]
    rw [ih r.reverse (fun c hc => h c (by simp at hc; simp [hc])) k (by simp; omega) _ (by simp)]
    simp [show k + 1 - (r.length + 1) = k - r.length by omega]

end Verif.Base40
