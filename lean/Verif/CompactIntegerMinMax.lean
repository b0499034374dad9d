import Verif.CompactIntegerLemmas

/-! Helper lemmas: masks, bit lengths, minimum and maximum, header fields. -/

namespace Verif

theorem cleanup_eq (u : W) {b : Nat} (h1 : 1 ≤ b) (h2 : b ≤ 32) :
    (cleanup u b).toNat = 2 ^ b - 1 := by
  unfold cleanup
  rw [if_pos (by omega)]
  rw [BitVec.toNat_ushiftRight, BitVec.toNat_allOnes, Nat.shiftRight_eq_div_pow]
  rw [show ((32 : Int) - b).toNat = 32 - b by omega]
  have : 2 ^ 32 = 2 ^ b * 2 ^ (32 - b) := by rw [← Nat.pow_add]; congr 1; omega
  have hp : 0 < 2 ^ (32 - b) := Nat.two_pow_pos _
  have hb : 0 < 2 ^ b := Nat.two_pow_pos _
  rw [this]
  rw [Nat.sub_one, Nat.sub_one]
  have h3 : (2 ^ b * 2 ^ (32 - b)).pred = (2 ^ b - 1) * 2 ^ (32 - b) + (2 ^ (32 - b) - 1) := by
    rw [Nat.sub_mul, Nat.one_mul, Nat.pred_eq_sub_one]
    have : 2 ^ (32 - b) ≤ 2 ^ b * 2 ^ (32 - b) := Nat.le_mul_of_pos_left _ hb
    omega
  rw [h3, Nat.mul_comm, Nat.mul_add_div hp, Nat.div_eq_of_lt (by omega)]
  simp

theorem and_cleanup_toNat (u : W) {b : Nat} (h1 : 1 ≤ b) (h2 : b ≤ 32) (x : W) :
    (x &&& cleanup u b).toNat = x.toNat % 2 ^ b := by
  rw [BitVec.toNat_and, cleanup_eq u h1 h2, Nat.and_two_pow_sub_one_eq_mod]

theorem and_cleanup_lt (u : W) {b : Nat} (h1 : 1 ≤ b) (h2 : b ≤ 32) (x : W) :
    (x &&& cleanup u b).toNat < 2 ^ b := by
  rw [and_cleanup_toNat u h1 h2]; exact Nat.mod_lt _ (Nat.two_pow_pos _)

theorem and_cleanup_eq (u : W) {b : Nat} (h1 : 1 ≤ b) (h2 : b ≤ 32) (x : W) (hx : x.toNat < 2 ^ b) :
    x &&& cleanup u b = x := by
  apply BitVec.eq_of_toNat_eq
  rw [and_cleanup_toNat u h1 h2, Nat.mod_eq_of_lt hx]

theorem cleanup_32 (u : W) : cleanup u 32 = BitVec.allOnes 32 := by
  simp [cleanup]

theorem lt_two_pow_bitLen (x : Nat) : x < 2 ^ bitLen x := by
  induction x using Nat.strongRecOn with
  | _ x ih =>
    unfold bitLen
    split
    · subst_vars; simp
    · have := ih (x / 2) (by omega)
      rw [Nat.pow_succ]; omega

theorem bitLen_le {x n : Nat} (h : x < 2 ^ n) : bitLen x ≤ n := by
  induction n generalizing x with
  | zero =>
    have : x = 0 := by simpa using h
    subst this
    unfold bitLen; simp
  | succ n ih =>
    unfold bitLen
    split
    · omega
    · have := ih (x := x / 2) (by rw [Nat.pow_succ] at h; omega)
      omega

theorem bitLen_pos {x : Nat} (h : x ≠ 0) : 1 ≤ bitLen x := by
  unfold bitLen; simp [h]

/-- Value of an element as the comparison of `FindMinMax` sees it. -/
def elemVal (signed : Bool) (x : W) : Int := if signed then x.toInt else x.toNat

theorem elemLt_iff (signed : Bool) (x y : W) :
    elemLt signed x y = true ↔ elemVal signed x < elemVal signed y := by
  cases signed
  · simp [elemLt, elemVal, BitVec.ult]
  · simp [elemLt, elemVal, BitVec.slt]

theorem findMinMax_spec (signed : Bool) (xs : List W) (mn mx : W)
    (h0 : elemVal signed mn ≤ elemVal signed mx) :
    let r := findMinMax signed xs (mn, mx)
    elemVal signed r.1 ≤ elemVal signed mn ∧ elemVal signed mx ≤ elemVal signed r.2 ∧
      ∀ x ∈ xs, elemVal signed r.1 ≤ elemVal signed x ∧ elemVal signed x ≤ elemVal signed r.2 := by
  induction xs generalizing mn mx with
  | nil => simp [findMinMax]
  | cons y ys ih =>
    simp only [findMinMax]
    by_cases c1 : elemLt signed y mn = true
    · rw [if_pos c1]
      have c1' := (elemLt_iff _ _ _).1 c1
      have := ih y mx (by omega)
      refine ⟨by omega, by omega, ?_⟩
      intro x hx
      rcases List.mem_cons.1 hx with rfl | hx
      · omega
      · exact this.2.2 x hx
    · rw [if_neg c1]
      have c1' := mt (elemLt_iff _ _ _).2 c1
      by_cases c2 : elemLt signed mx y = true
      · rw [if_pos c2]
        have c2' := (elemLt_iff _ _ _).1 c2
        have := ih mn y (by omega)
        refine ⟨by omega, by omega, ?_⟩
        intro x hx
        rcases List.mem_cons.1 hx with rfl | hx
        · omega
        · exact this.2.2 x hx
      · rw [if_neg c2]
        have c2' := mt (elemLt_iff _ _ _).2 c2
        have := ih mn mx h0
        refine ⟨by omega, by omega, ?_⟩
        intro x hx
        rcases List.mem_cons.1 hx with rfl | hx
        · omega
        · exact this.2.2 x hx

theorem findMinMax_mem (signed : Bool) (xs : List W) (mn mx : W) (l : List W)
    (h1 : mn ∈ l) (h2 : mx ∈ l) (h3 : ∀ x ∈ xs, x ∈ l) :
    (findMinMax signed xs (mn, mx)).1 ∈ l ∧ (findMinMax signed xs (mn, mx)).2 ∈ l := by
  induction xs generalizing mn mx with
  | nil => exact ⟨h1, h2⟩
  | cons y ys ih =>
    simp only [findMinMax]
    have hy := h3 y (by simp)
    have h3' : ∀ x ∈ ys, x ∈ l := fun x hx => h3 x (by simp [hx])
    split
    · exact ih y mx hy h2 h3'
    · split
      · exact ih mn y h1 hy h3'
      · exact ih mn mx h1 h2 h3'

/-- Distances to the minimum, computed modulo 2^32, are the true distances. -/
theorem sub_toNat_of_le (signed : Bool) {x y : W} (h : elemVal signed x ≤ elemVal signed y) :
    ((y - x).toNat : Int) = elemVal signed y - elemVal signed x := by
  have hx := x.isLt
  have hy := y.isLt
  rw [BitVec.toNat_sub]
  cases signed
  · simp only [elemVal] at h ⊢
    simp at h ⊢
    omega
  · simp only [elemVal] at h ⊢
    simp only [if_true] at h ⊢
    rw [BitVec.toInt_eq_toNat_cond, BitVec.toInt_eq_toNat_cond] at h ⊢
    split at h <;> split at h <;> simp_all <;> omega

theorem headerFields : ∀ (sh b : Fin 64),
    let w := 0xFD000000#32 ||| (BitVec.ofNat 32 sh <<< 6) ||| BitVec.ofNat 32 b
    w.toNat % 64 = b ∧ w.toNat / 64 % 64 = sh := by
  decide +kernel

end Verif
