import Verif.CompactIntegerMinMax

/-! Helper lemmas: the entry points reduce to `pack`/`unpack`, and these are inverse. -/

namespace Verif

theorem gather_strided {k : Nat} {src : List (BitVec k)} {stride : Nat} (xs : List (BitVec k)) (i : Nat)
    (h : ∀ j (hj : j < xs.length), src[(i + j) * stride]? = some xs[j]) :
    gather src stride xs.length i = some (xs.map (·.setWidth 32)) := by
  induction xs generalizing i with
  | nil => rfl
  | cons x xs ih =>
    have h0 := h 0 (by simp)
    simp only [Nat.add_zero, List.getElem_cons_zero] at h0
    have := ih (i + 1) (by
      intro j hj
      have := h (j + 1) (by simp; omega)
      rw [show i + (j + 1) = i + 1 + j by omega] at this
      simpa using this)
    simp [gather, h0, this]

theorem Strided.gather {k : Nat} {src : List (BitVec k)} {stride : Nat} {xs : List (BitVec k)}
    (h : Strided src stride xs) : gather src stride xs.length 0 = some (xs.map (·.setWidth 32)) :=
  gather_strided xs 0 (by intro j hj; simpa using h j hj)

theorem gather_inv {k : Nat} {src : List (BitVec k)} {stride : Nat} (n i : Nat) (ys : List W)
    (h : gather src stride n i = some ys) :
    ∃ xs : List (BitVec k), xs.length = n ∧ ys = xs.map (·.setWidth 32) ∧
      ∀ j (hj : j < xs.length), src[(i + j) * stride]? = some xs[j] := by
  induction n generalizing i ys with
  | zero => exact ⟨[], rfl, by simpa [Verif.gather] using h.symm, by simp⟩
  | succ n ih =>
    simp only [Verif.gather] at h
    split at h
    · rename_i x r hx hr
      obtain ⟨xs, hl, hy, hs⟩ := ih (i + 1) r hr
      refine ⟨x :: xs, by simp [hl], by simp at h; simp [← h, hy], ?_⟩
      intro j hj
      cases j with
      | zero => simpa using hx
      | succ j =>
        have := hs j (by simpa using hj)
        rw [show i + 1 + j = i + (j + 1) by omega] at this
        simpa using this
    · cases h

/-- Packing then unpacking. -/
theorem pack_unpack {k : Nat} (u : W) {src out : List (BitVec k)} {xs : List (BitVec k)} {dst : List W}
    {stride bits off : Nat} {kind : TokKind} {ukind : UntokKind} {mask : W}
    (hb1 : 1 ≤ bits) (hb2 : bits ≤ 32) (hst : 1 ≤ stride)
    (hsrc : Strided src stride xs)
    (htok : ∀ x ∈ xs, (kind.written bits off mask (x.setWidth 32)).toNat < 2 ^ bits)
    (hroom : off + xs.length * bits < 32 * dst.length)
    (hout : ∀ j, j < xs.length → j * stride < out.length) :
    ∃ d o, pack src xs.length stride bits off kind mask dst = some d ∧ d.length = dst.length ∧
      unpack u d xs.length stride bits off ukind out = some o ∧ o.length = out.length ∧
      Strided o stride (xs.map fun x => (ukind.val (kind.written bits off mask (x.setWidth 32))).setWidth k) ∧
      (∀ p, (∀ j, j < xs.length → p ≠ j * stride) → o[p]? = out[p]?) := by
  obtain ⟨d, e, l, b⟩ := pack_spec (kind := kind) (mask := mask) (off := off) (dst := dst) hb2 hsrc htok (by omega)
  have hlen : (memBits dst).length = 32 * dst.length := by simp
  have hdrop : (memBits d).drop off = tokBits bits (xs.map fun x => kind.written bits off mask (x.setWidth 32)) ++
      (memBits dst).drop (off + xs.length * bits) := by
    rw [b, List.append_assoc, List.drop_append_of_le_length (by simp; omega)]
    rw [List.drop_of_length_le (by simp; omega)]
    rfl
  obtain ⟨o, eo, lo, so, po⟩ := unpack_spec (k := k) (u := u) (kind := ukind) (out := out) (stride := stride) hb1 hb2 hst
    (ts := xs.map fun x => kind.written bits off mask (x.setWidth 32))
    (by intro t ht; obtain ⟨x, hx, rfl⟩ := List.mem_map.1 ht; exact htok x hx) hdrop
    (by intro h; have := congrArg List.length h; simp at this; omega)
    (by simpa using hout)
  simp only [List.length_map] at eo po
  exact ⟨d, o, e, l, eo, lo, by simpa [Function.comp_def] using so, po⟩

theorem written_cleanup_lt (u : W) (kind : TokKind) {bits : Nat} (off : Nat) (h1 : 1 ≤ bits) (h2 : bits ≤ 32) (x : W) :
    (kind.written bits off (cleanup u bits) x).toNat < 2 ^ bits := by
  unfold TokKind.written
  split
  · rename_i h; rw [h.1]; exact BitVec.isLt _
  · exact and_cleanup_lt u h1 h2 _

theorem written_cleanup_eq (u : W) (kind : TokKind) {bits : Nat} (off : Nat) (h1 : 1 ≤ bits) (h2 : bits ≤ 32) (x : W)
    (h : (kind.tok x).toNat < 2 ^ bits) : kind.written bits off (cleanup u bits) x = kind.tok x := by
  unfold TokKind.written
  split
  · rfl
  · exact and_cleanup_eq u h1 h2 _ h

theorem le_foldl_or (l : List W) (a x : W) (h : x.toNat ≤ a.toNat ∨ x ∈ l) :
    x.toNat ≤ (l.foldl (· ||| ·) a).toNat := by
  induction l generalizing a with
  | nil => rcases h with h | h <;> simp_all
  | cons y ys ih =>
    simp only [List.foldl_cons]
    apply ih
    rcases h with h | h
    · left; rw [BitVec.toNat_or]; exact Nat.le_trans h Nat.left_le_or
    · rcases List.mem_cons.1 h with rfl | h
      · left; rw [BitVec.toNat_or]; exact Nat.right_le_or
      · right; exact h

/-- What the header contains: every element lies between the recorded extremes, which are elements. -/
theorem constructHeader_spec {signed : Bool} {xs : List W} {bits : Int} {h : CIHeader} {b sh : Nat}
    (e : constructHeader signed xs bits = some (h, b, sh)) :
    h.word0 = 0xFD000000#32 ||| (BitVec.ofNat 32 sh <<< 6) ||| BitVec.ofNat 32 b ∧
    h.count = BitVec.ofNat 32 xs.length ∧
    (h.min ∈ xs ∧ h.max ∈ xs) ∧
    (∀ x ∈ xs, elemVal signed h.min ≤ elemVal signed x ∧ elemVal signed x ≤ elemVal signed h.max) ∧
    (bits = -1 → b = bitLen (h.max - h.min).toNat ∧ sh = 0) ∧
    (bits ≠ -1 → b = bits.toNat ∧ sh = bitLen (h.max - h.min).toNat - bits.toNat) := by
  unfold constructHeader at e
  split at e
  · cases e
  · rename_i x rest
    have hs := findMinMax_spec signed rest x x (Int.le_refl _)
    have hmem := findMinMax_mem signed rest x x (x :: rest) (by simp) (by simp) (by intro y hy; simp [hy])
    revert e hs hmem
    generalize findMinMax signed rest (x, x) = r
    obtain ⟨mn, mx⟩ := r
    intro e hs hmem
    simp only at e hs hmem
    have hall : ∀ y ∈ x :: rest, elemVal signed mn ≤ elemVal signed y ∧ elemVal signed y ≤ elemVal signed mx := by
      intro y hy
      rcases List.mem_cons.1 hy with rfl | hy
      · exact ⟨hs.1, hs.2.1⟩
      · exact hs.2.2 y hy
    by_cases c : bits = -1
    · simp only [if_pos c, Option.some.injEq, Prod.mk.injEq] at e
      obtain ⟨rfl, rfl, rfl⟩ := e
      exact ⟨rfl, rfl, hmem, hall, fun _ => ⟨rfl, rfl⟩, fun h => absurd c h⟩
    · simp only [if_neg c, Option.some.injEq, Prod.mk.injEq] at e
      obtain ⟨rfl, rfl, rfl⟩ := e
      exact ⟨rfl, rfl, hmem, hall, fun h => absurd h c, fun _ => ⟨rfl, rfl⟩⟩

theorem constructHeader_isSome (signed : Bool) (xs : List W) (bits : Int) (h : xs ≠ []) :
    ∃ r, constructHeader signed xs bits = some r := by
  unfold constructHeader
  split
  · contradiction
  · exact ⟨_, rfl⟩

/-- Distance to the minimum never exceeds the recorded range. -/
theorem dist_le {signed : Bool} {mn mx x : W} (h1 : elemVal signed mn ≤ elemVal signed x)
    (h2 : elemVal signed x ≤ elemVal signed mx) : (x - mn).toNat ≤ (mx - mn).toNat := by
  have a := sub_toNat_of_le signed h1
  have b := sub_toNat_of_le signed (Int.le_trans h1 h2)
  omega

theorem bitLen_word (x : W) : bitLen x.toNat ≤ 32 := bitLen_le x.isLt

/-- Bits outside the written range. -/
theorem outside_unchanged {l l' mid : List Bool} {off n : Nat}
    (h : l' = l.take off ++ mid ++ l.drop (off + n)) (hm : mid.length = n) (ho : off + n ≤ l.length) :
    ∀ p, p < off ∨ off + n ≤ p → l'[p]? = l[p]? := by
  intro p hp
  subst h
  rcases hp with hp | hp
  · rw [List.append_assoc, List.getElem?_append_left (by simp; omega), List.getElem?_take_of_lt hp]
  · rw [List.getElem?_append_right (by simp; omega), List.getElem?_drop]
    congr 1
    simp
    omega

end Verif
