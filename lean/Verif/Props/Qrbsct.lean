import Verif.Qrbsct
import Mathlib.Tactic

namespace Verif.Qrbsct

/-! # C165: the table of elements -/

theorem getbit_lsb (w : List W) (y : Nat) : getbit w y = (w[y / 32]?).map fun x => (x.getLsbD (31 - y % 32)).toNat := by
  unfold getbit
  congr 1
  funext x
  rw [BitVec.toNat_and, BitVec.toNat_ushiftRight, show (1#32).toNat = 1 from rfl, Nat.and_one_is_mod, BitVec.getLsbD, Nat.toNat_testBit,
    Nat.shiftRight_eq_div_pow]

theorem putbit_spec (w : List W) (y : Nat) (h : y / 32 < w.length) :
    ∃ v, putbit w y = some v ∧ v.length = w.length ∧ ∀ z, z / 32 < w.length → getbit v z = if z = y then some 1 else getbit w z := by
  refine ⟨_, by rw [putbit, List.getElem?_eq_getElem h]; rfl, by simp, fun z hz => ?_⟩
  rw [getbit_lsb, getbit_lsb]
  by_cases hw : y / 32 = z / 32
  · rw [← hw, List.getElem?_set_self h, List.getElem?_eq_getElem h]
    simp only [Option.map_some, BitVec.getLsbD_or, BitVec.getLsbD_shiftLeft, BitVec.getLsbD_one]
    by_cases hzy : z = y
    · subst hzy
      have : 31 - z % 32 < 32 := by omega
      simp [this]
    · rw [if_neg hzy]
      have h1 : ¬ (31 - z % 32 < 31 - y % 32 ∧ False) := by simp
      have h2 : z % 32 ≠ y % 32 := by omega
      congr 2
      by_cases g : 31 - z % 32 < 31 - y % 32
      · simp [g]
      · have : 31 - z % 32 - (31 - y % 32) ≠ 0 := by omega
        simp [this]
  · rw [if_neg (by rintro rfl; exact hw rfl), List.getElem?_set_ne hw]

/-- The lines which give rows, as rows. -/
def rowsOf (ls : List Line) : List (Nat × Int × Int) :=
  (ls.filter fun l => !(l.first == '*' || l.first == '#') && l.c51 != '*').map fun l => (Bufr.cov l.elem, l.scale, l.ref)

/-- The element is marked as repeated on a line. -/
def Marked (ls : List Line) (e : Nat) : Prop :=
  ∃ l ∈ ls, l.first ≠ '*' ∧ l.first ≠ '#' ∧ (l.c85 = 'M' ∨ l.c85 = 'm') ∧ Bufr.cov l.elem = e

theorem cov_lt {x : Nat} : Bufr.cov x < 65536 := by
  unfold Bufr.cov
  have h0 : (63 : Nat) = 2 ^ 6 - 1 := rfl
  have h3 : (3 : Nat) = 2 ^ 2 - 1 := rfl
  refine Nat.or_lt_two_pow (n := 16) (Nat.or_lt_two_pow (n := 16) ?_ ?_) ?_
  · have := Nat.mod_lt (x % 100000) (show 0 < 1000 by decide); omega
  · have : (x % 100000 / 1000 &&& 63) ≤ 63 := Nat.and_le_right
    rw [Nat.shiftLeft_eq]; omega
  · have : (x / 100000 &&& 3) ≤ 3 := Nat.and_le_right
    rw [Nat.shiftLeft_eq]; omega

theorem loop_spec (tabdim nelelu : Nat) (ls : List Line) (rows : List (Nat × Int × Int)) (rep : List W) (hr : rep.length = 2048)
    (hf : rows.length + (rowsOf ls).length ≤ tabdim) :
    ∃ rep', loop tabdim nelelu ls rows rep = some ⟨0, (rows ++ rowsOf ls).length, rows ++ rowsOf ls, rep', true⟩ ∧ rep'.length = 2048 ∧
      ∀ e < 65536, (getbit rep' e = some 1 ↔ getbit rep e = some 1 ∨ Marked ls e) := by
  induction ls generalizing rows rep with
  | nil =>
    refine ⟨rep, ?_, hr, fun e _ => ?_⟩
    · simp only [loop, rowsOf, List.filter_nil, List.map_nil, List.append_nil]
      congr 2
      split <;> omega
    · simp [Marked]
  | cons l ls ih =>
    by_cases hc : comment l = true
    · have hro : rowsOf (l :: ls) = rowsOf ls := by
        unfold rowsOf; rw [List.filter_cons_of_neg]; simp only [comment] at hc; simp [hc]
      have hm : ∀ e, Marked (l :: ls) e ↔ Marked ls e := by
        intro e
        unfold Marked
        constructor
        · rintro ⟨k, hk, h1, h2, h⟩
          rcases List.mem_cons.1 hk with rfl | hk
          · simp only [comment, Bool.or_eq_true, beq_iff_eq] at hc
            rcases hc with g | g
            · exact absurd g h1
            · exact absurd g h2
          · exact ⟨k, hk, h1, h2, h⟩
        · rintro ⟨k, hk, h⟩; exact ⟨k, List.mem_cons_of_mem _ hk, h⟩
      rw [loop, if_pos hc, hro]
      obtain ⟨r, a, b, c⟩ := ih rows rep hr (by rw [hro] at hf; exact hf)
      exact ⟨r, a, b, fun e he => by rw [c e he, hm]⟩
    · have hc1 : l.first ≠ '*' ∧ l.first ≠ '#' := by simpa [comment] using hc
      rw [loop, if_neg hc]
      obtain ⟨rep1, p1, p2, p3⟩ : ∃ rep1, (if l.c85 = 'M' ∨ l.c85 = 'm' then putbit rep (Bufr.cov l.elem) else some rep) = some rep1 ∧
          rep1.length = 2048 ∧ ∀ e < 65536, (getbit rep1 e = some 1 ↔ getbit rep e = some 1 ∨
            ((l.c85 = 'M' ∨ l.c85 = 'm') ∧ Bufr.cov l.elem = e)) := by
        have hlt := cov_lt (x := l.elem)
        by_cases g : l.c85 = 'M' ∨ l.c85 = 'm'
        · obtain ⟨v, a, b, c⟩ := putbit_spec rep (Bufr.cov l.elem) (by omega)
          refine ⟨v, by rw [if_pos g, a], by omega, fun e he => ?_⟩
          rw [c e (by omega)]
          by_cases k : e = Bufr.cov l.elem
          · simp [k, g]
          · simp only [if_neg k, g, true_and]
            constructor
            · exact Or.inl
            · rintro (h | h)
              · exact h
              · exact absurd h.symm k
        · exact ⟨rep, by rw [if_neg g], hr, fun e _ => by simp [g]⟩
      have hm : ∀ e, Marked (l :: ls) e ↔ ((l.c85 = 'M' ∨ l.c85 = 'm') ∧ Bufr.cov l.elem = e) ∨ Marked ls e := by
        intro e
        unfold Marked
        constructor
        · rintro ⟨k, hk, h1, h2, h⟩
          rcases List.mem_cons.1 hk with rfl | hk
          · exact Or.inl h
          · exact Or.inr ⟨k, hk, h1, h2, h⟩
        · rintro (h | ⟨k, hk, h⟩)
          · exact ⟨l, List.mem_cons_self, hc1.1, hc1.2, h⟩
          · exact ⟨k, List.mem_cons_of_mem _ hk, h⟩
      simp only [p1, Option.bind_some]
      by_cases g : l.c51 ≠ '*'
      · have hro : rowsOf (l :: ls) = (Bufr.cov l.elem, l.scale, l.ref) :: rowsOf ls := by
          unfold rowsOf; rw [List.filter_cons_of_pos, List.map_cons]; simp [hc1.1, hc1.2, g]
        rw [hro, List.length_cons] at hf
        rw [if_pos g, if_neg (by omega), hro]
        obtain ⟨r, a, b, c⟩ := ih (rows ++ [(Bufr.cov l.elem, l.scale, l.ref)]) rep1 p2 (by simp; omega)
        refine ⟨r, ?_, b, fun e he => ?_⟩
        · rw [a]; simp
        · rw [c e he, p3 e he, hm, or_assoc]
      · have hro : rowsOf (l :: ls) = rowsOf ls := by
          unfold rowsOf; rw [List.filter_cons_of_neg]; simp at g; simp [g]
        rw [if_neg g, hro]
        obtain ⟨r, a, b, c⟩ := ih rows rep1 p2 (by rw [hro] at hf; exact hf)
        exact ⟨r, a, b, fun e he => by rw [c e he, p3 e he, hm, or_assoc]⟩

/-- C165.  If the rows fit in the table, all of them and nothing else are in it, in the order of the file, whatever number the file
states, and afterwards an element is said to be repeated exactly if a line of it is marked or it was said before. -/
theorem C165_table (tabdim nelelu : Nat) (ls : List Line) (rep : List W) (hr : rep.length = 2048) (hf : (rowsOf ls).length ≤ tabdim) :
    ∃ rep', qrbsct tabdim nelelu ls rep = some ⟨0, (rowsOf ls).length, rowsOf ls, rep', true⟩ ∧
      ∀ e : Nat, 1 ≤ e → e < 65536 → (mrbrpt rep' e = some 1 ↔ mrbrpt rep e = some 1 ∨ Marked ls e) := by
  obtain ⟨r, a, b, c⟩ := loop_spec tabdim nelelu ls [] rep hr (by simpa using hf)
  refine ⟨r, by simpa [qrbsct] using a, fun e h1 h2 => ?_⟩
  have key : ∀ w : List W, mrbrpt w e = some 1 ↔ getbit w e = some 1 := by
    intro w
    rw [mrbrpt, if_neg (by omega), Int.toNat_natCast]
    cases getbit w e with
    | none => simp
    | some n =>
      simp only [Option.map_some, Option.some.injEq, Int.ofNat_eq_natCast]
      omega
  rw [key, key, c e h2]

/-- C165.  A table which is too small gives the error, the rows which fit, and the number the file states, not that of the rows; the
file stays open. -/
theorem C165_small (tabdim nelelu : Nat) (ls : List Line) (rep : List W) (hr : rep.length = 2048) (hf : tabdim < (rowsOf ls).length) :
    ∃ rep', qrbsct tabdim nelelu ls rep = some ⟨35, nelelu, (rowsOf ls).take tabdim, rep', false⟩ := by
  have gen : ∀ (ls : List Line) (rows : List (Nat × Int × Int)) (rep : List W), rep.length = 2048 → rows.length ≤ tabdim →
      tabdim < rows.length + (rowsOf ls).length →
      ∃ rep', loop tabdim nelelu ls rows rep = some ⟨35, nelelu, (rows ++ rowsOf ls).take tabdim, rep', false⟩ := by
    intro ls
    induction ls with
    | nil => intro rows rep _ h1 h2; simp [rowsOf] at h2; omega
    | cons l ls ih =>
      intro rows rep hr h1 h2
      by_cases hc : comment l = true
      · have hro : rowsOf (l :: ls) = rowsOf ls := by
          unfold rowsOf; rw [List.filter_cons_of_neg]; simp only [comment] at hc; simp [hc]
        rw [loop, if_pos hc, hro]
        exact ih rows rep hr h1 (by rw [hro] at h2; exact h2)
      · have hc1 : l.first ≠ '*' ∧ l.first ≠ '#' := by simpa [comment] using hc
        rw [loop, if_neg hc]
        obtain ⟨rep1, p1, p2⟩ : ∃ rep1, (if l.c85 = 'M' ∨ l.c85 = 'm' then putbit rep (Bufr.cov l.elem) else some rep) = some rep1 ∧
            rep1.length = 2048 := by
          have hlt := cov_lt (x := l.elem)
          by_cases g : l.c85 = 'M' ∨ l.c85 = 'm'
          · obtain ⟨v, a, b, -⟩ := putbit_spec rep (Bufr.cov l.elem) (by omega)
            exact ⟨v, by rw [if_pos g, a], by omega⟩
          · exact ⟨rep, by rw [if_neg g], hr⟩
        simp only [p1, Option.bind_some]
        by_cases g : l.c51 ≠ '*'
        · have hro : rowsOf (l :: ls) = (Bufr.cov l.elem, l.scale, l.ref) :: rowsOf ls := by
            unfold rowsOf; rw [List.filter_cons_of_pos, List.map_cons]; simp [hc1.1, hc1.2, g]
          rw [hro, List.length_cons] at h2
          rw [if_pos g, hro]
          by_cases h3 : rows.length + 1 > tabdim
          · rw [if_pos h3]
            refine ⟨rep1, ?_⟩
            have : rows.length = tabdim := by omega
            rw [← this, List.take_left]
          · rw [if_neg h3]
            obtain ⟨r, a⟩ := ih (rows ++ [(Bufr.cov l.elem, l.scale, l.ref)]) rep1 p2 (by simp; omega) (by simp; omega)
            exact ⟨r, by rw [a]; simp⟩
        · have hro : rowsOf (l :: ls) = rowsOf ls := by
            unfold rowsOf; rw [List.filter_cons_of_neg]; simp at g; simp [g]
          rw [if_neg g, hro]
          exact ih rows rep1 p2 h1 (by rw [hro] at h2; exact h2)
  simpa [qrbsct] using gen ls [] rep hr (Nat.zero_le _) (by simpa using hf)

/-- C165.  The element after the last one is accepted and its bit is read outside the array. -/
theorem C165_beyond_witness (rep : List W) (hr : rep.length = 2048) : mrbrpt rep 65536 = none ∧ mrbrpt rep 65537 = some 37 ∧ mrbrpt rep 0 = some 37 := by
  refine ⟨?_, by simp [mrbrpt], by simp [mrbrpt]⟩
  rw [mrbrpt, if_neg (by decide), getbit, List.getElem?_eq_none (by rw [hr]; decide)]
  rfl

/-- Three lines: a comment, a row, a repeated element without a row. -/
example : rowsOf [⟨'*', 0, ' ', 0, 0, 'M'⟩, ⟨'0', 12001, ' ', 1, -5, ' '⟩, ⟨'0', 8001, '*', 0, 0, 'm'⟩] = [(3073, 1, -5)] ∧
    Marked [⟨'*', 0, ' ', 0, 0, 'M'⟩, ⟨'0', 8001, '*', 0, 0, 'm'⟩] 2049 :=
  ⟨by decide +kernel, ⟨'0', 8001, '*', 0, 0, 'm'⟩, by simp, by decide, by decide, Or.inr rfl, by decide +kernel⟩


end Verif.Qrbsct
