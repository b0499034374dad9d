import Verif.EzCherche

/-! # C50: table search -/

namespace Verif.EzCherche

/-- **C50**, the part that holds: tables of 2 to 2^23 entries.  The search ends after at most `nbelem`
passes with an index `i` in 1..nbelem-1 such that the value is above entry `i` (or `i` is the first) and
not above entry `i+1` (or that is the last).  Nothing is assumed about the table, so this also holds
for unordered comparisons.

Missing: larger tables, for which the search may not end (`C50_large_table_witness`). -/
theorem C50_bracket_partial (le : Nat → Bool) (n fuel : Nat) (h2 : 2 ≤ n) (hn : n ≤ 2 ^ 23) (hf : n ≤ fuel) :
    ∃ i, ezCherche le n fuel = some i ∧ 1 ≤ i ∧ i < n ∧ (i = 1 ∨ le i = false) ∧ (i + 1 = n ∨ le (i + 1) = true) :=
  loop_spec le n hn fuel 1 n (by omega) (by omega) (by omega) (Nat.le_refl _) (Or.inl rfl) (Or.inl rfl)

/-- **C50** in terms of an ascending table of integers: the returned index is the only one whose
interval holds the value, for values above the first entry and not above the last. -/
theorem C50_ascending_partial (t : Nat → Int) (val : Int) (n fuel : Nat) (h2 : 2 ≤ n) (hn : n ≤ 2 ^ 23) (hf : n ≤ fuel)
    (asc : ∀ i j, 1 ≤ i → i < j → j ≤ n → t i < t j) :
    ∃ i, ezCherche (fun k => decide (val ≤ t k)) n fuel = some i ∧ 1 ≤ i ∧ i < n ∧
      (val ≤ t 1 → i = 1) ∧ (t n < val → i = n - 1) ∧
      (t 1 < val → val ≤ t n → (t i < val ∧ val ≤ t (i + 1)) ∧
        ∀ j, 1 ≤ j → j < n → t j < val → val ≤ t (j + 1) → j = i) := by
  obtain ⟨i, e, h1, hi, ha, hb⟩ := C50_bracket_partial (fun k => decide (val ≤ t k)) n fuel h2 hn hf
  simp only [decide_eq_false_iff_not, decide_eq_true_eq, Int.not_le] at ha hb
  have mono : ∀ i j, 1 ≤ i → i ≤ j → j ≤ n → t i ≤ t j := by
    intro i j a b c
    rcases Nat.lt_or_eq_of_le b with h | h
    · exact Int.le_of_lt (asc i j a h c)
    · rw [h]; exact Int.le_refl _
  refine ⟨i, e, h1, hi, ?_, ?_, ?_⟩
  · intro hv
    rcases ha with h | h
    · exact h
    · have := mono 1 i (by omega) h1 (by omega); omega
  · intro hv
    rcases hb with h | h
    · omega
    · have := mono (i + 1) n (by omega) (by omega) (Nat.le_refl _); omega
  · intro v1 vn
    have h3 : t i < val := by
      rcases ha with h | h
      · rw [h]; exact v1
      · exact h
    have h4 : val ≤ t (i + 1) := by
      rcases hb with h | h
      · rw [h]; exact vn
      · exact h
    refine ⟨⟨h3, h4⟩, ?_⟩
    intro j hj1 hjn hj hj'
    rcases Nat.lt_trichotomy i j with h | h | h
    · have := mono (i + 1) j (by omega) (by omega) (by omega); omega
    · exact h.symm
    · have := mono (j + 1) i (by omega) (by omega) (by omega); omega

example : ezCherche (fun k => decide ((25 : Int) ≤ 10 * k)) 9 9 = some 2 := by decide +kernel

/-- For a table of 2^24 entries and a value between the last two, the single precision midpoint is the
upper end of the interval and the search never ends. -/
theorem C50_large_table_witness :
    ∀ fuel, ezCherche (fun k => decide (2 ^ 24 ≤ k)) (2 ^ 24) fuel = none := by
  have stuck : ∀ n, loop (fun k => decide (2 ^ 24 ≤ k)) n (2 ^ 24 - 1, 2 ^ 24) = none :=
    loop_stuck (by decide +kernel)
  intro fuel
  unfold ezCherche
  have pass : ∀ k, k ≤ 23 → ∀ n, loop (fun k => decide (2 ^ 24 ≤ k)) n (2 ^ 24 - 2 ^ k, 2 ^ 24) = none := by
    intro k
    induction k with
    | zero => intro _; exact stuck
    | succ k ih =>
      intro hk
      have hstep : ∀ j : Fin 23, step (fun k => decide (2 ^ 24 ≤ k)) (2 ^ 24 - 2 ^ (j.val + 1), 2 ^ 24)
          = .inl (2 ^ 24 - 2 ^ j.val, 2 ^ 24) := by decide +kernel
      exact loop_next (hstep ⟨k, by omega⟩) (ih (by omega))
  have first : step (fun k => decide (2 ^ 24 ≤ k)) (1, 2 ^ 24) = .inl (2 ^ 24 - 2 ^ 23, 2 ^ 24) := by decide +kernel
  exact loop_next first (pass 23 (Nat.le_refl _)) fuel

end Verif.EzCherche
