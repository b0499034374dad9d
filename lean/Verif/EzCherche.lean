/-! # Model of `ez_cherche` (`src/interp/ez_cherche.inc`)

The table enters only through the comparison `val .le. tableau(i)`, given as a function `le` of the
index.  `(debut+fin)*0.5` is computed in single precision: the integer is first rounded to 24
significant bits (to nearest, ties to even), the product is exact, and the result is truncated. -/

namespace Verif.EzCherche

/-- Conversion of an integer below 2^31 to `real` (single precision): round to nearest, ties to even. -/
def toReal (n : Nat) : Nat :=
  let e := n.log2 - 23
  let q := n / 2 ^ e
  let r := n % 2 ^ e
  let half := 2 ^ e / 2
  if e = 0 then n
  else if r > half ∨ (r = half ∧ q % 2 = 1) then (q + 1) * 2 ^ e else q * 2 ^ e

/-- `milieu = (debut+fin)*0.5` (ez_cherche.inc:57, 65). -/
def mid (debut fin : Nat) : Nat := toReal (debut + fin) / 2

/-- One pass through the loop (ez_cherche.inc:59-67): the new `debut` and `fin`, or the result. -/
def step (le : Nat → Bool) (s : Nat × Nat) : Nat × Nat ⊕ Nat :=
  let milieu := mid s.1 s.2
  if milieu ≠ s.1 then
    if le milieu then .inl (s.1, milieu) else .inl (milieu, s.2)
  else .inr milieu

/-- The loop with at most `fuel` passes; `none` when it has not ended by then. -/
def loop (le : Nat → Bool) : Nat → Nat × Nat → Option Nat
  | 0, _ => none
  | n+1, s =>
    match step le s with
    | .inr r => some r
    | .inl s' => loop le n s'

/-- `ez_cherche` (ez_cherche.inc:22-72) on a table of `nbelem` entries. -/
def ezCherche (le : Nat → Bool) (nbelem fuel : Nat) : Option Nat := loop le fuel (1, nbelem)

/-! ## Lemmas -/

theorem toReal_small {n : Nat} (h : n < 2 ^ 24) : toReal n = n := by
  have : n.log2 - 23 = 0 := by
    by_cases h0 : n = 0
    · subst h0; decide
    · have := (Nat.log2_lt h0).2 h; omega
  simp [toReal, this]

theorem mid_small {a b : Nat} (h : a + b < 2 ^ 24) : mid a b = (a + b) / 2 := by rw [mid, toReal_small h]

theorem loop_spec (le : Nat → Bool) (n : Nat) (hn : n ≤ 2 ^ 23) :
    ∀ (k d f : Nat), f - d ≤ k → 1 ≤ d → d < f → f ≤ n → (d = 1 ∨ le d = false) → (f = n ∨ le f = true) →
      ∃ i, loop le k (d, f) = some i ∧ 1 ≤ i ∧ i < n ∧ (i = 1 ∨ le i = false) ∧ (i + 1 = n ∨ le (i + 1) = true) := by
  intro k
  induction k with
  | zero => intro d f h1 h2 h3; omega
  | succ k ih =>
    intro d f hk hd hdf hf h1 h2
    have hm : mid d f = (d + f) / 2 := mid_small (by omega)
    simp only [loop, step, hm]
    by_cases c : (d + f) / 2 = d
    · have : f = d + 1 := by omega
      subst this
      simp only [c, ne_eq, not_true_eq_false, if_false]
      exact ⟨d, rfl, hd, by omega, h1, h2⟩
    · simp only [ne_eq, c, not_false_eq_true, if_true]
      by_cases hl : le ((d + f) / 2) = true
      · simp only [hl, if_true]
        exact ih _ _ (by omega) hd (by omega) (by omega) h1 (Or.inr hl)
      · simp only [hl]
        exact ih _ _ (by omega) (by omega) (by omega) hf (Or.inr (by simpa using hl)) h2

theorem loop_stuck {le : Nat → Bool} {s : Nat × Nat} (h : step le s = .inl s) (n : Nat) : loop le n s = none := by
  induction n with
  | zero => rfl
  | succ n ih => simp only [loop, h, ih]

theorem loop_next {le : Nat → Bool} {s t : Nat × Nat} (h : step le s = .inl t) (ht : ∀ n, loop le n t = none) (n : Nat) :
    loop le n s = none := by
  cases n with
  | zero => rfl
  | succ n => simp only [loop, h, ht]

end Verif.EzCherche
