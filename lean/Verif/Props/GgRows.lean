import Verif.GgRows
import Mathlib.Tactic

namespace Verif.GgRows

/-! # C175: the rows around a place in a Gaussian grid -/

/-- The sines continued over the poles. -/
def cont (n : Nat) (roots : Nat → ℚ) (j : Int) : ℚ :=
  if j < 1 then 2 - roots (1 - j).toNat else if j ≤ n then roots j.toNat else -2 - roots (2 * n + 1 - j).toNat

theorem down_spec (n : Nat) (roots : Nat → ℚ) (mu : ℚ) (h2 : mu ≤ roots 2) (j : Nat) (hj : 2 ≤ j ∧ j ≤ n) :
    ∃ k, down n roots mu j = some k ∧ 2 ≤ k ∧ k ≤ j ∧ mu ≤ roots k := by
  induction j with
  | zero => omega
  | succ j ih =>
    rw [down, rd, if_pos (by omega)]
    simp only [Option.bind_eq_bind, Option.bind_some]
    by_cases c : roots (j + 1) ≥ mu
    · exact ⟨j + 1, by rw [if_pos c]; rfl, by omega, le_refl _, c⟩
    · rw [if_neg c]
      have : j ≠ 1 := by rintro rfl; exact c h2
      obtain ⟨k, k1, k2, k3, k4⟩ := ih (by omega)
      exact ⟨k, k1, k2, by omega, k4⟩

theorem up_spec (n : Nat) (roots : Nat → ℚ) (mu : ℚ) (hm : roots (n - 1) < mu) (fuel j : Nat) (hf : n ≤ fuel + j) (hj : j + 2 ≤ n)
    (hmu : mu ≤ roots j) : ∃ k, up n roots mu fuel j = some k ∧ j ≤ k ∧ k + 2 ≤ n ∧ mu ≤ roots k ∧ roots (k + 1) < mu := by
  induction fuel generalizing j with
  | zero => omega
  | succ fuel ih =>
    rw [up, rd, if_pos (by omega)]
    simp only [Option.bind_eq_bind, Option.bind_some]
    by_cases c : roots (j + 1) < mu
    · exact ⟨j, by rw [if_pos c]; rfl, le_refl _, hj, hmu, c⟩
    · rw [if_neg c]
      have : j + 1 ≠ n - 1 := by intro e; rw [e] at c; exact c hm
      obtain ⟨k, k1, k2, k3, k4⟩ := ih (j + 1) (by omega) (by omega) (not_lt.1 c)
      exact ⟨k, k1, by omega, k3, k4⟩

/-- C175.  For a global field with at least four rows and sines in decreasing order the place lies between the rows `JJ` and `JJ+1`, rows
beyond a pole included, and the four values are the sines of the rows `JJ-1` to `JJ+2`, continued over the poles. -/
theorem C175_rows (n : Nat) (hn : 4 ≤ n) (roots : Nat → ℚ) (hd : ∀ i j, 1 ≤ i → i < j → j ≤ n → roots j < roots i) (h1 : roots 1 < 1)
    (h2 : -1 < roots n) (mu : ℚ) (hm : -1 ≤ mu ∧ mu ≤ 1) :
    ∃ jj : Nat, jj ≤ n ∧
      locate n n (-2) roots mu = some (jj, cont n roots (jj - 1), cont n roots jj, cont n roots (jj + 1), cont n roots (jj + 2)) ∧
      mu ≤ cont n roots jj ∧ cont n roots (jj + 1) < mu ∧
      cont n roots (jj + 2) < cont n roots (jj + 1) ∧ cont n roots (jj + 1) < cont n roots jj ∧ cont n roots jj < cont n roots (jj - 1) := by
  have d12 := hd 1 2 (by omega) (by omega) (by omega)
  have d23 := hd 2 3 (by omega) (by omega) (by omega)
  have d2m : roots (n - 1) < roots 2 := hd 2 (n - 1) (by omega) (by omega) (by omega)
  have dmn := hd (n - 1) n (by omega) (by omega) (by omega)
  have dlm := hd (n - 2) (n - 1) (by omega) (by omega) (by omega)
  have inside : ∀ j : Nat, 1 ≤ j → j ≤ n → cont n roots (j : Int) = roots j := by
    intro j a b
    rw [cont, if_neg (by omega), if_pos (by omega)]; rfl
  have c0 : cont n roots 0 = 2 - roots 1 := by rw [cont, if_pos (by omega)]; rfl
  have cm : cont n roots (-1) = 2 - roots 2 := by rw [cont, if_pos (by omega)]; rfl
  have cn1 : cont n roots ((n : Int) + 1) = -2 - roots n := by
    rw [cont, if_neg (by omega), if_neg (by omega)]; congr 2; omega
  have cn2 : cont n roots ((n : Int) + 2) = -2 - roots (n - 1) := by
    rw [cont, if_neg (by omega), if_neg (by omega)]; congr 2; omega
  have r : ∀ j, 1 ≤ j → j ≤ n → rd n roots j = some (roots j) := fun j a b => by rw [rd, if_pos ⟨a, b⟩]
  have L : locate n n (-2) roots mu = locate n n (-2) roots mu := rfl
  conv_rhs at L => rw [locate]
  simp only [r 1 (by omega) (by omega), r 2 (by omega) (by omega), r 3 (by omega) (by omega), r (n - 1) (by omega) (by omega),
    r n (by omega) (by omega), r (n - 2) (by omega) (by omega), Option.bind_eq_bind, Option.bind_some, Option.pure_def] at L
  by_cases k1 : mu > roots 1
  · refine ⟨0, by omega, ?_⟩
    have ic : icase mu (roots 1) (roots 2) (roots (n - 1)) (roots n) = 1 := by
      simp only [icase]
      rw [if_neg (show ¬ mu ≤ roots n by linarith), if_neg (show ¬ (mu ≤ roots (n - 1) ∧ mu > roots n) by rintro ⟨h, _⟩; linarith),
        if_neg (show ¬ (mu ≤ roots 2 ∧ mu > roots (n - 1)) by rintro ⟨h, _⟩; linarith), if_neg (show ¬ (mu ≤ roots 1 ∧ mu > roots 2) by rintro ⟨h, _⟩; linarith), if_pos k1]
    rw [L, ic, if_pos rfl]
    have e1 := inside 1 (by omega) (by omega)
    have e2 := inside 2 (by omega) (by omega)
    push_cast at e1 e2 ⊢
    simp only [c0, cm, e1, e2]
    refine ⟨trivial, ?_, ?_, ?_, ?_, ?_⟩ <;> linarith
  rw [not_lt] at k1
  by_cases k2 : mu > roots 2
  · refine ⟨1, by omega, ?_⟩
    have ic : icase mu (roots 1) (roots 2) (roots (n - 1)) (roots n) = 2 := by
      simp only [icase]
      rw [if_neg (show ¬ mu ≤ roots n by linarith), if_neg (show ¬ (mu ≤ roots (n - 1) ∧ mu > roots n) by rintro ⟨h, _⟩; linarith),
        if_neg (show ¬ (mu ≤ roots 2 ∧ mu > roots (n - 1)) by rintro ⟨h, _⟩; linarith), if_pos ⟨k1, k2⟩]
    rw [L, ic, if_neg (by omega), if_pos rfl]
    have e1 := inside 1 (by omega) (by omega)
    have e2 := inside 2 (by omega) (by omega)
    have e3 := inside 3 (by omega) (by omega)
    push_cast at e1 e2 e3 ⊢
    simp only [c0, e1, e2, e3]
    refine ⟨trivial, ?_, ?_, ?_, ?_, ?_⟩ <;> linarith
  rw [not_lt] at k2
  by_cases k3 : mu > roots (n - 1)
  · obtain ⟨p, p1, p2, p3, p4⟩ := down_spec n roots mu k2 (min (n - 1) (max 2 ⌊0.5 * (1 - mu) * n⌋.toNat)) (by omega)
    have pn : p ≠ n - 1 := by rintro rfl; linarith
    obtain ⟨q, q1, q2, q3, q4, q5⟩ := up_spec n roots mu k3 n p (by omega) (by omega) p4
    refine ⟨q, by omega, ?_⟩
    have ic : icase mu (roots 1) (roots 2) (roots (n - 1)) (roots n) = 3 := by
      simp only [icase]
      rw [if_neg (show ¬ mu ≤ roots n by linarith), if_neg (show ¬ (mu ≤ roots (n - 1) ∧ mu > roots n) by rintro ⟨h, _⟩; linarith), if_pos ⟨k2, k3⟩]
    rw [L, ic, if_neg (by omega), if_neg (by omega), if_pos rfl, p1]
    simp only [Option.bind_some, q1, r (q - 1) (by omega) (by omega), r q (by omega) (by omega), r (q + 1) (by omega) (by omega),
      r (q + 2) (by omega) (by omega)]
    have e0 := inside (q - 1) (by omega) (by omega)
    have e1 := inside q (by omega) (by omega)
    have e2 := inside (q + 1) (by omega) (by omega)
    have e3 := inside (q + 2) (by omega) (by omega)
    rw [show ((q - 1 : Nat) : Int) = (q : Int) - 1 by omega] at e0
    push_cast at e2 e3
    rw [e0, e1, e2, e3]
    exact ⟨rfl, q4, q5, hd (q + 1) (q + 2) (by omega) (by omega) (by omega), hd q (q + 1) (by omega) (by omega) (by omega),
      hd (q - 1) q (by omega) (by omega) (by omega)⟩
  rw [not_lt] at k3
  have em := inside (n - 1) (by omega) (by omega)
  have el := inside (n - 2) (by omega) (by omega)
  have en := inside n (by omega) (by omega)
  rw [show ((n - 1 : Nat) : Int) = (n : Int) - 1 by omega] at em
  rw [show ((n - 2 : Nat) : Int) = (n : Int) - 2 by omega] at el
  by_cases k4 : mu > roots n
  · refine ⟨n - 1, by omega, ?_⟩
    have ic : icase mu (roots 1) (roots 2) (roots (n - 1)) (roots n) = 4 := by
      simp only [icase]
      rw [if_neg (show ¬ mu ≤ roots n by linarith), if_pos ⟨k3, k4⟩]
    rw [L, ic, if_neg (by omega), if_neg (by omega), if_neg (by omega), if_pos rfl,
      show ((n - 1 : Nat) : Int) = (n : Int) - 1 by omega, show (n : Int) - 1 - 1 = n - 2 by ring, show (n : Int) - 1 + 1 = n by ring,
      show (n : Int) - 1 + 2 = n + 1 by ring, em, el, en, cn1]
    exact ⟨rfl, k3, k4, by linarith, dmn, dlm⟩
  · rw [not_lt] at k4
    refine ⟨n, le_refl _, ?_⟩
    have ic : icase mu (roots 1) (roots 2) (roots (n - 1)) (roots n) = 5 := by
      simp only [icase]
      rw [if_pos k4]
    rw [L, ic, if_neg (by omega), if_neg (by omega), if_neg (by omega), if_neg (by omega), em, en, cn1, cn2]
    exact ⟨rfl, k4, by linarith [hm.1], by linarith, by linarith, dmn⟩

example : locate 4 4 (-2) (fun j => (5 - 2 * j) / 4) (1 / 10) = some (2, 3 / 4, 1 / 4, -1 / 4, -3 / 4) ∧
    locate 4 4 (-2) (fun j => (5 - 2 * j) / 4) (9 / 10) = some (0, 7 / 4, 5 / 4, 3 / 4, 1 / 4) := by decide +kernel

/-- C175.  The entries for the northern hemisphere look at the rows `2·LJ-1` and `2·LJ` of `ROOTS(LJ)`, which do not exist, for each
place. -/
theorem C175_north_witness (lj : Nat) (south : ℚ) (roots : Nat → ℚ) (mu : ℚ) (h : 2 ≤ lj) : locate lj (2 * lj) south roots mu = none := by
  rw [locate]
  simp only [rd]
  rw [if_pos (by omega), if_pos (by omega), if_neg (by omega)]
  rfl


end Verif.GgRows
