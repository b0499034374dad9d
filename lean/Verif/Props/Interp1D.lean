import Verif.Interp1D
import Mathlib.Tactic.Linarith
import Mathlib.Tactic.Ring
import Mathlib.Tactic.FieldSimp
import Mathlib.Tactic.Positivity
import Mathlib.Tactic.NormNum

/-!
Vertical interpolation: the search finds the pair of levels around each target, the interpolations give the value of
the level at a level, reproduce straight lines and cubics and keep to the clamps, and the extrapolations act on the
targets outside of the levels only.
-/
namespace Verif.Interp1D

/-! ### C66: positions -/

/-- Single precision numbers: 24 bits. -/
def Single (x : ℚ) : Prop := ∃ m e : Int, |m| < 2 ^ 24 ∧ x = m * 2 ^ e

/-- A rounding leaves single precision numbers as they are. -/
def Keeps (r : ℚ → ℚ) : Prop := ∀ x, Single x → r x = x

theorem get_some (l : List ℚ) (k : Int) (h1 : 1 ≤ k) (h2 : k ≤ l.length) : ∃ a, get l k = some a := by
  unfold get
  rw [if_pos h1]
  have : (k - 1).toNat < l.length := by omega
  exact ⟨_, List.getElem?_eq_getElem this⟩

theorem get_lt (l : List ℚ) (k : Int) (a : ℚ) (h : get l k = some a) : 1 ≤ k ∧ k ≤ l.length := by
  unfold get at h
  split at h
  case isTrue h1 =>
    obtain ⟨h2, _⟩ := List.getElem?_eq_some_iff.mp h
    omega
  case isFalse => simp at h

/-- Levels in increasing order. -/
def Up (lev : List ℚ) : Prop := lev.Pairwise (· < ·)

/-- Levels in decreasing order. -/
def Down (lev : List ℚ) : Prop := lev.Pairwise (· > ·)

theorem pairwise_get (R : ℚ → ℚ → Prop) (l : List ℚ) (h : l.Pairwise R) (i j : Int) (a b : ℚ) (hij : i < j)
    (ha : get l i = some a) (hb : get l j = some b) : R a b := by
  obtain ⟨i1, i2⟩ := get_lt l i a ha
  obtain ⟨j1, j2⟩ := get_lt l j b hb
  unfold get at ha hb
  rw [if_pos i1] at ha
  rw [if_pos j1] at hb
  obtain ⟨hi, rfl⟩ := List.getElem?_eq_some_iff.mp ha
  obtain ⟨hj, rfl⟩ := List.getElem?_eq_some_iff.mp hb
  exact List.pairwise_iff_getElem.mp h _ _ hi hj (by omega)

/-- Half-way state of the search: the interval of the index holds the target, or the index is right already. -/
structure Inv (n : Nat) (U D : Int → Prop) (u x : ℚ) : Prop where
  pos : 0 < u
  lo : 1 ≤ x - u
  hi : x + u ≤ n
  held : (¬ U ⌊x⌋ ∧ ¬ D ⌊x⌋) ∨ ((x - u = 1 ∨ U ⌊x - u⌋) ∧ (x + u = n ∨ D ⌊x + u⌋))
  form : ∃ j m : ℕ, u = ((n : ℚ) - 1) / 2 ^ (j + 1) ∧ x = m / 2 ^ (j + 1)

theorem Inv.floor {n : Nat} {U D : Int → Prop} {u x : ℚ} (h : Inv n U D u x) : 1 ≤ ⌊x⌋ ∧ ⌊x⌋ + 1 ≤ n := by
  have h1 := h.pos
  have h2 := h.lo
  have h3 := h.hi
  constructor
  · rw [Int.le_floor]
    push_cast
    linarith
  · have : ⌊x⌋ < (n : Int) := by
      rw [Int.floor_lt]
      push_cast
      linarith
    omega

theorem single_frac (m j : ℕ) (h : m < 2 ^ 24) : Single ((m : ℚ) / 2 ^ j) := by
  refine ⟨m, -j, by simpa using (by exact_mod_cast h : (m : Int) < 2 ^ 24), ?_⟩
  rw [zpow_neg, zpow_natCast, div_eq_mul_inv]
  push_cast
  rfl

theorem lim_pos : 0 < lim := by unfold lim; norm_num

/-- Numbers of the search, with one more bit than before, are single precision numbers. -/
theorem single_step (n : Nat) (hn : 2 ≤ n) (hn' : n ≤ 2800) (j m : ℕ) (hu : lim < ((n : ℚ) - 1) / 2 ^ (j + 1))
    (hx : (m : ℚ) / 2 ^ (j + 2) ≤ n) : Single ((m : ℚ) / 2 ^ (j + 2)) := by
  apply single_frac
  have hp : (0 : ℚ) < 2 ^ (j + 1) := by positivity
  rw [lt_div_iff₀ hp] at hu
  rw [div_le_iff₀ (by positivity)] at hx
  have e : (2 : ℚ) ^ (j + 2) = 2 * 2 ^ (j + 1) := by ring
  rw [e] at hx
  generalize (2 : ℚ) ^ (j + 1) = q at *
  have hnq : (n : ℚ) ≤ 2800 := by exact_mod_cast hn'
  have hnq2 : (2 : ℚ) ≤ n := by exact_mod_cast hn
  have hq : q < 2799 / lim := by
    rw [lt_div_iff₀ lim_pos]
    linarith
  have : (m : ℚ) < 2 ^ 24 := by
    have h1 : (n : ℚ) * (2 * q) ≤ 2800 * (2 * (2799 / lim)) := by
      apply mul_le_mul hnq _ (by positivity) (by norm_num)
      linarith
    have h2 : (2800 : ℚ) * (2 * (2799 / lim)) < 2 ^ 24 := by unfold lim; norm_num
    linarith
  exact_mod_cast this

theorem single_unc (n : Nat) (hn : 2 ≤ n) (hn' : n ≤ 2800) (j : ℕ) : Single (((n : ℚ) - 1) / 2 ^ j) := by
  have e : ((n : ℚ) - 1) = ((n - 1 : ℕ) : ℚ) := by
    rw [Nat.cast_sub (by omega)]
    simp
  rw [e]
  apply single_frac
  omega

/-- One round of the search. -/
theorem move_inv (r : ℚ → ℚ) (hr : Keeps r) (inc : Bool) (lev : List ℚ) (d u x : ℚ) (n : Nat) (hl : lev.length = n)
    (hn : 2 ≤ n) (hn' : n ≤ 2800) (hm : if inc then Up lev else Down lev) (U D : Int → Prop)
    (hU : ∀ k b, get lev (k + 1) = some b → (U k ↔ if inc then b < d else d ≤ b))
    (hD : ∀ k a, get lev k = some a → (D k ↔ if inc then d < a else a ≤ d))
    (h : Inv n U D u x) (hu : u > lim) : ∃ x', move r inc lev d (r (1 / 2 * u)) x = some x' ∧
      Inv n U D (r (1 / 2 * u)) x' ∧ r (1 / 2 * u) = u / 2 := by
  obtain ⟨f1, f2⟩ := h.floor
  obtain ⟨j, m, hj, hx⟩ := h.form
  have p0 := h.pos
  have p1 := h.lo
  have p2 := h.hi
  have eu : r (1 / 2 * u) = u / 2 := by
    have : (1 / 2 * u) = ((n : ℚ) - 1) / 2 ^ (j + 2) := by rw [hj, pow_succ 2 (j + 1)]; field_simp
    rw [this, hr _ (single_unc n hn hn' _), ← this]
    ring
  have fu : u / 2 = ((n : ℚ) - 1) / 2 ^ (j + 2) := by rw [hj, pow_succ 2 (j + 1)]; field_simp
  have fx : x = ((2 * m : ℕ) : ℚ) / 2 ^ (j + 2) := by rw [hx, pow_succ 2 (j + 1)]; push_cast; field_simp
  have fn : ((n : ℚ) - 1) = ((n - 1 : ℕ) : ℚ) := by
    rw [Nat.cast_sub (by omega)]
    simp
  have hm1 : n - 1 ≤ 2 * m := by
    have : u / 2 ≤ x := by linarith
    rw [fu, fx, fn] at this
    rw [div_le_div_iff_of_pos_right (by positivity)] at this
    exact_mod_cast this
  have fp : x + u / 2 = ((2 * m + (n - 1) : ℕ) : ℚ) / 2 ^ (j + 2) := by
    rw [fx, fu, fn]; push_cast; ring
  have fm : x - u / 2 = ((2 * m - (n - 1) : ℕ) : ℚ) / 2 ^ (j + 2) := by
    rw [fx, fu, fn, Nat.cast_sub hm1]; ring
  have kx : r x = x := by
    apply hr
    rw [fx]
    apply single_step n hn hn' j
    · rw [← hj]; exact hu
    · rw [← fx]; linarith
  have kp : r (x + u / 2) = x + u / 2 := by
    apply hr
    rw [fp]
    apply single_step n hn hn' j
    · rw [← hj]; exact hu
    · rw [← fp]; linarith
  have km : r (x - u / 2) = x - u / 2 := by
    apply hr
    rw [fm]
    apply single_step n hn hn' j
    · rw [← hj]; exact hu
    · rw [← fm]; linarith
  obtain ⟨a, ha⟩ := get_some lev ⌊x⌋ f1 (by omega)
  obtain ⟨b, hb⟩ := get_some lev (⌊x⌋ + 1) (by omega) (by omega)
  have iU := hU _ _ hb
  have iD := hD _ _ ha
  have stay : ¬ U ⌊x⌋ → ¬ D ⌊x⌋ → Inv n U D (u / 2) x := fun h1 h2 =>
    ⟨by linarith, by linarith, by linarith, Or.inl ⟨h1, h2⟩, j + 1, 2 * m, fu, fx⟩
  have goUp : U ⌊x⌋ → ¬ D ⌊x⌋ → Inv n U D (u / 2) (x + u / 2) := fun h1 h2 => by
    refine ⟨by linarith, by linarith, by linarith, Or.inr ⟨Or.inr ?_, ?_⟩, j + 1, _, fu, fp⟩
    · rwa [add_sub_cancel_right]
    · have e : x + u / 2 + u / 2 = x + u := by ring
      rw [e]
      rcases h.held with ⟨q, _⟩ | ⟨_, q⟩
      · exact absurd h1 q
      · exact q
  have goDown : D ⌊x⌋ → ¬ U ⌊x⌋ → Inv n U D (u / 2) (x - u / 2) := fun h1 h2 => by
    refine ⟨by linarith, by linarith, by linarith, Or.inr ⟨?_, Or.inr ?_⟩, j + 1, _, fu, fm⟩
    · have e : x - u / 2 - u / 2 = x - u := by ring
      rw [e]
      rcases h.held with ⟨_, q⟩ | ⟨q, _⟩
      · exact absurd h1 q
      · exact q
    · rwa [sub_add_cancel]
  rw [eu]
  unfold move
  simp only [ha, hb, Option.bind_eq_bind, Option.bind_some, Option.pure_def]
  cases inc with
  | true =>
    simp only [if_true] at iU iD hm ⊢
    have hab : a < b := pairwise_get _ lev hm _ _ a b (by omega) ha hb
    refine ⟨_, rfl, ?_, trivial⟩
    by_cases c1 : d ≥ a
    · rw [if_pos c1, kp]
      by_cases c2 : d ≤ b
      · rw [if_pos c2, add_sub_cancel_right, kx]
        exact stay (by rw [iU]; linarith) (by rw [iD]; linarith)
      · rw [if_neg c2]
        exact goUp (by rw [iU]; linarith) (by rw [iD]; linarith)
    · rw [if_neg c1, if_pos (by linarith), km]
      exact goDown (by rw [iD]; linarith) (by rw [iU]; linarith)
  | false =>
    simp only [Bool.false_eq_true, if_false] at iU iD hm ⊢
    have hab : a > b := pairwise_get _ lev hm _ _ a b (by omega) ha hb
    refine ⟨_, rfl, ?_, trivial⟩
    by_cases c1 : d ≥ a
    · rw [if_pos c1, km, if_neg (by linarith)]
      exact goDown (by rw [iD]; linarith) (by rw [iU]; linarith)
    · rw [if_neg c1]
      by_cases c2 : d ≤ b
      · rw [if_pos c2, kp]
        exact goUp (by rw [iU]; linarith) (by rw [iD]; linarith)
      · rw [if_neg c2]
        exact stay (by rw [iU]; linarith) (by rw [iD]; linarith)

theorem search_inv (r : ℚ → ℚ) (hr : Keeps r) (inc : Bool) (lev : List ℚ) (d : ℚ) (n : Nat) (hl : lev.length = n)
    (hn : 2 ≤ n) (hn' : n ≤ 2800) (hm : if inc then Up lev else Down lev) (U D : Int → Prop)
    (hU : ∀ k b, get lev (k + 1) = some b → (U k ↔ if inc then b < d else d ≤ b))
    (hD : ∀ k a, get lev k = some a → (D k ↔ if inc then d < a else a ≤ d)) (fuel : Nat) :
    ∀ u x, Inv n U D u x → u ≤ lim * 2 ^ fuel →
      ∃ x' u', search r inc lev d (fuel + 1) u x = some x' ∧ Inv n U D u' x' ∧ u' ≤ lim := by
  induction fuel with
  | zero =>
    intro u x h hu
    refine ⟨x, u, ?_, h, by simpa using hu⟩
    unfold search
    rw [if_neg (by rw [pow_zero, mul_one] at hu; linarith)]
  | succ fuel ih =>
    intro u x h hu
    by_cases c : u > lim
    · obtain ⟨x', e1, e2, e3⟩ := move_inv r hr inc lev d u x n hl hn hn' hm U D hU hD h c
      obtain ⟨x'', u'', g1, g2, g3⟩ := ih (r (1 / 2 * u)) x' e2 (by
        rw [e3]
        rw [pow_succ] at hu
        linarith)
      refine ⟨x'', u'', ?_, g2, g3⟩
      rw [search, if_pos c]
      dsimp only
      rw [e1]
      exact g1
    · refine ⟨x, u, ?_, h, by linarith⟩
      rw [search, if_neg c]

/-- The last index of the search. -/
theorem Inv.last {n : Nat} {U D : Int → Prop} {u x : ℚ} (h : Inv n U D u x) (hu : u ≤ lim)
    (mU : ∀ i j : Int, 1 ≤ i → i < j → j + 1 ≤ n → U j → U i) (mD : ∀ i j : Int, 1 ≤ i → i < j → j ≤ n → D i → D j) :
    (⌊x⌋ = 1 ∨ ¬ D ⌊x⌋ ∨ U (⌊x⌋ - 1)) ∧ (⌊x⌋ + 1 = n ∨ ¬ U ⌊x⌋ ∨ D (⌊x⌋ + 1)) := by
  obtain ⟨f1, f2⟩ := h.floor
  have p0 := h.pos
  have p1 := h.lo
  have p2 := h.hi
  have hl : lim < 1 := by unfold lim; norm_num
  have a1 := Int.floor_le x
  have a2 := Int.lt_floor_add_one x
  rcases h.held with ⟨q1, q2⟩ | ⟨q1, q2⟩
  · exact ⟨Or.inr (Or.inl q2), Or.inr (Or.inl q1)⟩
  · constructor
    · rcases q1 with q1 | q1
      · left
        have : ⌊x⌋ < 2 := by
          rw [Int.floor_lt]
          push_cast
          linarith
        omega
      · by_cases c : ⌊x⌋ = 1
        · exact Or.inl c
        · right; right
          have b1 : ⌊x⌋ - 1 ≤ ⌊x - u⌋ := by
            rw [Int.le_floor]
            push_cast
            linarith
          have b2 : ⌊x - u⌋ ≤ ⌊x⌋ := Int.floor_le_floor (by linarith)
          rcases Int.lt_or_eq_of_le b1 with b | b
          · exact mU _ _ (by omega) b (by omega) q1
          · rw [b]; exact q1
    · rcases q2 with q2 | q2
      · left
        have : (n : Int) - 1 ≤ ⌊x⌋ := by
          rw [Int.le_floor]
          push_cast
          linarith
        omega
      · right; right
        have b1 : ⌊x + u⌋ ≤ ⌊x⌋ + 1 := by
          have : ⌊x + u⌋ < ⌊x⌋ + 2 := by
            rw [Int.floor_lt]
            push_cast
            linarith
          omega
        have b2 : ⌊x⌋ ≤ ⌊x + u⌋ := Int.floor_le_floor (by linarith)
        rcases Int.lt_or_eq_of_le b1 with b | b
        · exact mD _ _ (by omega) b (by omega) q2
        · rw [← b]; exact q2

theorem position_ok (r : ℚ → ℚ) (hr : Keeps r) (inc : Bool) (lev : List ℚ) (d : ℚ) (hn : 2 ≤ lev.length)
    (hn' : lev.length ≤ 2800) (hm : if inc then Up lev else Down lev) :
    ∃ p : Int, position r inc lev d = some p ∧ 1 ≤ p ∧ p + 1 ≤ lev.length ∧
      ∃ a b, get lev p = some a ∧ get lev (p + 1) = some b ∧
        (if inc then (p = 1 ∨ a ≤ d) ∧ (p + 1 = lev.length ∨ d ≤ b)
          else (p = 1 ∨ d ≤ a) ∧ (p + 1 = lev.length ∨ b ≤ d)) := by
  obtain ⟨n, hl⟩ : ∃ n, lev.length = n := ⟨_, rfl⟩
  rw [hl] at hn hn'
  let U : Int → Prop := fun k => ∀ b, get lev (k + 1) = some b → if inc then b < d else d ≤ b
  let D : Int → Prop := fun k => ∀ a, get lev k = some a → if inc then d < a else a ≤ d
  have hU : ∀ k b, get lev (k + 1) = some b → (U k ↔ if inc then b < d else d ≤ b) := fun k b h =>
    ⟨fun q => q b h, fun q b' h' => by rw [h] at h'; cases h'; exact q⟩
  have hD : ∀ k a, get lev k = some a → (D k ↔ if inc then d < a else a ≤ d) := fun k a h =>
    ⟨fun q => q a h, fun q b' h' => by rw [h] at h'; cases h'; exact q⟩
  have hnq : (2 : ℚ) ≤ n := by exact_mod_cast hn
  have hnq' : (n : ℚ) ≤ 2800 := by exact_mod_cast hn'
  have s1 : r ((n : ℚ) - 1) = n - 1 := by
    apply hr
    have := single_unc n hn hn' 0
    simpa using this
  have s2 : r ((n : ℚ) + 1) = n + 1 := by
    apply hr
    have := single_frac (n + 1) 0 (by omega)
    simpa using this
  have s3 : r (1 / 2 * ((n : ℚ) - 1)) = (n - 1) / 2 ^ (0 + 1) := by
    have : (1 / 2 * ((n : ℚ) - 1)) = (n - 1) / 2 ^ (0 + 1) := by ring
    rw [this]
    exact hr _ (single_unc n hn hn' 1)
  have s4 : r (1 / 2 * ((n : ℚ) + 1)) = ((n + 1 : ℕ) : ℚ) / 2 ^ (0 + 1) := by
    have : (1 / 2 * ((n : ℚ) + 1)) = ((n + 1 : ℕ) : ℚ) / 2 ^ (0 + 1) := by push_cast; ring
    rw [this]
    exact hr _ (single_frac (n + 1) 1 (by omega))
  have i0 : Inv n U D (((n : ℚ) - 1) / 2 ^ (0 + 1)) (((n + 1 : ℕ) : ℚ) / 2 ^ (0 + 1)) := by
    refine ⟨?_, ?_, ?_, Or.inr ⟨Or.inl ?_, Or.inl ?_⟩, 0, n + 1, rfl, rfl⟩
    · apply div_pos <;> [linarith; norm_num]
    all_goals push_cast; linarith
  obtain ⟨x, u, e1, e2, e3⟩ := search_inv r hr inc lev d n hl hn hn' hm U D hU hD n _ _ i0 (by
    have h1 : (n : ℚ) < 2 ^ n := by exact_mod_cast Nat.lt_two_pow_self
    have h2 : 1 / 2 ≤ lim := by unfold lim; norm_num
    have h3 : (0 : ℚ) < 2 ^ n := by positivity
    nlinarith)
  obtain ⟨f1, f2⟩ := e2.floor
  obtain ⟨a, ha⟩ := get_some lev ⌊x⌋ f1 (by omega)
  obtain ⟨b, hb⟩ := get_some lev (⌊x⌋ + 1) (by omega) (by omega)
  have mU : ∀ i j : Int, 1 ≤ i → i < j → j + 1 ≤ n → U j → U i := by
    intro i j h1 h2 h3 h4
    obtain ⟨a1, g1⟩ := get_some lev (i + 1) (by omega) (by omega)
    obtain ⟨b1, g2⟩ := get_some lev (j + 1) (by omega) (by omega)
    rw [hU i a1 g1]
    rw [hU j b1 g2] at h4
    cases inc with
    | true =>
      simp only [if_true] at *
      have := pairwise_get _ lev hm _ _ a1 b1 (by omega) g1 g2
      linarith
    | false =>
      simp only [Bool.false_eq_true, if_false] at *
      have := pairwise_get _ lev hm _ _ a1 b1 (by omega) g1 g2
      linarith
  have mD : ∀ i j : Int, 1 ≤ i → i < j → j ≤ n → D i → D j := by
    intro i j h1 h2 h3 h4
    obtain ⟨a1, g1⟩ := get_some lev i (by omega) (by omega)
    obtain ⟨b1, g2⟩ := get_some lev j (by omega) (by omega)
    rw [hD j b1 g2]
    rw [hD i a1 g1] at h4
    cases inc with
    | true =>
      simp only [if_true] at *
      have := pairwise_get _ lev hm _ _ a1 b1 (by omega) g1 g2
      linarith
    | false =>
      simp only [Bool.false_eq_true, if_false] at *
      have := pairwise_get _ lev hm _ _ a1 b1 (by omega) g1 g2
      linarith
  obtain ⟨l1, l2⟩ := e2.last e3 mU mD
  have jD : ¬ D ⌊x⌋ ∨ U (⌊x⌋ - 1) → if inc then a ≤ d else d ≤ a := by
    rw [hD _ a ha, hU (⌊x⌋ - 1) a (by rw [sub_add_cancel]; exact ha)]
    cases inc with
    | true =>
      simp only [if_true]
      rintro (q | q) <;> linarith
    | false =>
      simp only [Bool.false_eq_true, if_false]
      rintro (q | q) <;> linarith
  have jU : ¬ U ⌊x⌋ ∨ D (⌊x⌋ + 1) → if inc then d ≤ b else b ≤ d := by
    rw [hU _ b hb, hD (⌊x⌋ + 1) b hb]
    cases inc with
    | true =>
      simp only [if_true]
      rintro (q | q) <;> linarith
    | false =>
      simp only [Bool.false_eq_true, if_false]
      rintro (q | q) <;> linarith
  refine ⟨⌊x⌋, ?_, f1, by omega, a, b, ha, hb, ?_⟩
  · unfold position
    dsimp only
    rw [hl, s1, s2, s3, s4, e1]
    rfl
  · cases inc with
    | true =>
      simp only [if_true] at *
      exact ⟨l1.imp_right jD, (l2.imp_left (by omega)).imp_right jU⟩
    | false =>
      simp only [Bool.false_eq_true, if_false] at *
      exact ⟨l1.imp_right jD, (l2.imp_left (by omega)).imp_right jU⟩

/-- Position `p` of a target among increasing levels: level `p` is not above the target unless it is the first, and
level `p + 1` is not below it unless it is the last. -/
def AroundUp (lev : List ℚ) (d : ℚ) (p : Int) : Prop :=
  ∃ a b, get lev p = some a ∧ get lev (p + 1) = some b ∧ (p = 1 ∨ a ≤ d) ∧ (p + 1 = lev.length ∨ d ≤ b)

/-- The same among decreasing levels. -/
def AroundDown (lev : List ℚ) (d : ℚ) (p : Int) : Prop :=
  ∃ a b, get lev p = some a ∧ get lev (p + 1) = some b ∧ (p = 1 ∨ d ≤ a) ∧ (p + 1 = lev.length ∨ b ≤ d)

theorem mapM_forall {α β : Type} (f : α → Option β) (P : α → β → Prop) (l : List α)
    (h : ∀ x ∈ l, ∃ y, f x = some y ∧ P x y) : ∃ ys, l.mapM f = some ys ∧ List.Forall₂ P l ys := by
  induction l with
  | nil => exact ⟨[], rfl, .nil⟩
  | cons x l ih =>
    obtain ⟨y, h1, h2⟩ := h x (by simp)
    obtain ⟨ys, h3, h4⟩ := ih fun z hz => h z (by simp [hz])
    refine ⟨y :: ys, ?_, .cons h2 h4⟩
    rw [List.mapM_cons, h1, h3]
    rfl

theorem findPos_ok (r : ℚ → ℚ) (hr : Keeps r) (lev dst : List (List ℚ)) (inc : Bool) (hne : lev ≠ [])
    (hs : ∀ c ∈ lev, 2 ≤ c.length ∧ c.length ≤ 2800 ∧ if inc then Up c else Down c) :
    ∃ ps, findPos r lev dst = some ps ∧
      List.Forall₂ (fun cd qs => List.Forall₂ (fun d p => if inc then AroundUp cd.1 d p else AroundDown cd.1 d p)
        cd.2 qs) (lev.zip dst) ps := by
  have hi : increasing lev = some inc := by
    cases lev with
    | nil => exact absurd rfl hne
    | cons c l =>
      obtain ⟨c1, c2, c3⟩ := hs c (by simp)
      obtain ⟨a, ha⟩ := get_some c 1 (by omega) (by omega)
      obtain ⟨b, hb⟩ := get_some c 2 (by omega) (by omega)
      unfold increasing
      simp only [List.head?_cons, ha, hb, Option.bind_eq_bind, Option.bind_some, Option.pure_def]
      cases inc with
      | true =>
        simp only [if_true] at c3
        have := pairwise_get _ c c3 1 2 a b (by omega) ha hb
        simp [this]
      | false =>
        simp only [Bool.false_eq_true, if_false] at c3
        have := pairwise_get _ c c3 1 2 a b (by omega) ha hb
        simp only [Option.some.injEq, decide_eq_false_iff_not]
        linarith
  unfold findPos
  rw [hi]
  simp only [Option.bind_eq_bind, Option.bind_some]
  apply mapM_forall
  rintro ⟨c, ds⟩ hc
  obtain ⟨c1, c2, c3⟩ := hs c (List.of_mem_zip hc).1
  apply mapM_forall
  intro d _
  obtain ⟨p, h1, _, _, a, b, h4, h5, h6⟩ := position_ok r hr inc c d c1 c2 c3
  refine ⟨p, h1, ?_⟩
  cases inc with
  | true =>
    simp only [if_true] at *
    exact ⟨a, b, h4, h5, h6⟩
  | false =>
    simp only [Bool.false_eq_true, if_false] at *
    exact ⟨a, b, h4, h5, h6⟩

/-- C66.  When all sets hold between 2 and 2800 levels in increasing order, the search reads no element outside of the
levels, ends, and gives for each target of each set a position around the target. -/
theorem C66_up (r : ℚ → ℚ) (hr : Keeps r) (lev dst : List (List ℚ)) (hne : lev ≠ [])
    (hs : ∀ c ∈ lev, 2 ≤ c.length ∧ c.length ≤ 2800 ∧ Up c) :
    ∃ ps, findPos r lev dst = some ps ∧
      List.Forall₂ (fun cd qs => List.Forall₂ (AroundUp cd.1) cd.2 qs) (lev.zip dst) ps := by
  have := findPos_ok r hr lev dst true hne (by simpa using hs)
  simpa only [if_true] using this

/-- C66.  The same for levels in decreasing order. -/
theorem C66_down (r : ℚ → ℚ) (hr : Keeps r) (lev dst : List (List ℚ)) (hne : lev ≠ [])
    (hs : ∀ c ∈ lev, 2 ≤ c.length ∧ c.length ≤ 2800 ∧ Down c) :
    ∃ ps, findPos r lev dst = some ps ∧
      List.Forall₂ (fun cd qs => List.Forall₂ (AroundDown cd.1) cd.2 qs) (lev.zip dst) ps := by
  have := findPos_ok r hr lev dst false hne (by simpa using hs)
  simpa only [Bool.false_eq_true, if_false] using this

theorem keeps_id : Keeps id := fun _ _ => rfl

/-- A target inside of the levels lies between the two levels of its position; a target outside is given the first or
the last pair. -/
theorem aroundUp_inside (lev : List ℚ) (d : ℚ) (p : Int) (hl : Up lev) (h : AroundUp lev d p) (a z : ℚ)
    (ha : get lev 1 = some a) (hz : get lev lev.length = some z) :
    (a ≤ d → d ≤ z → ∃ x y, get lev p = some x ∧ get lev (p + 1) = some y ∧ x ≤ d ∧ d ≤ y) ∧
    (d < a → p = 1) ∧ (z < d → p + 1 = lev.length) := by
  obtain ⟨x, y, hx, hy, h1, h2⟩ := h
  refine ⟨fun q1 q2 => ⟨x, y, hx, hy, ?_, ?_⟩, fun q => ?_, fun q => ?_⟩
  · rcases h1 with h1 | h1
    · subst h1
      rw [ha] at hx
      cases hx
      exact q1
    · exact h1
  · rcases h2 with h2 | h2
    · rw [h2, hz] at hy
      cases hy
      exact q2
    · exact h2
  · rcases h1 with h1 | h1
    · exact h1
    · obtain ⟨p1, _⟩ := get_lt _ _ _ hx
      rcases Int.lt_or_eq_of_le p1 with c | c
      · have := pairwise_get _ lev hl _ _ a x c ha hx
        linarith
      · exact c.symm
  · rcases h2 with h2 | h2
    · exact h2
    · obtain ⟨_, p2⟩ := get_lt _ _ _ hy
      rcases Int.lt_or_eq_of_le p2 with c | c
      · have := pairwise_get _ lev hl _ _ y z c hy hz
        linarith
      · exact c

/-- Two sets of three levels, and targets inside, outside and on levels. -/
example : ∃ ps, findPos id [[1, 2, 4], [0, 5, 6]] [[3, 9], [5, -1]] = some ps ∧
    List.Forall₂ (fun cd qs => List.Forall₂ (AroundUp cd.1) cd.2 qs)
      ([[1, 2, 4], [0, 5, 6]].zip [[3, 9], [5, -1]]) ps := by
  apply C66_up id keeps_id _ _ (by simp)
  intro c hc
  simp only [List.mem_cons, List.not_mem_nil, or_false] at hc
  rcases hc with rfl | rfl <;> (refine ⟨by simp, by simp, ?_⟩; unfold Up; norm_num)

theorem floor_num (x : ℚ) (k : Int) (h1 : k ≤ x) (h2 : x < k + 1) : ⌊x⌋ = k := Int.floor_eq_iff.mpr ⟨h1, h2⟩

/-- C66.  The order is taken from the first set.  A set in the opposite order is searched the wrong way: the target 2.5
of the second set lies between its levels 1 and 2, and is given the position 2. -/
theorem C66_order_witness : findPos id [[1, 2, 3], [3, 2, 1]] [[], [5 / 2]] = some [[], [2]] := by
  have f : ⌊(5 / 2 : ℚ)⌋ = 2 := floor_num _ _ (by norm_num) (by norm_num)
  have f2 : ⌊(2 : ℚ)⌋ = 2 := floor_num _ _ (by norm_num) (by norm_num)
  norm_num [findPos, increasing, get, position, search, move, lim, f, f2]
  have e : [(3 : ℚ), 2, 1][Int.toNat 2] = 1 := rfl
  rw [e, if_neg (by norm_num), f]

/-! ### C67: interpolated values -/

/-- Levels in one of the two orders, and a position around the target. -/
inductive Placed (inc : Bool) (lev : List ℚ) (d : ℚ) (p : Int) : Prop where
  | up (h : inc = true) (hl : Up lev) (hp : AroundUp lev d p)
  | down (h : inc = false) (hl : Down lev) (hp : AroundDown lev d p)

/-- The target is not beyond the first and last levels. -/
def Inside (lev : List ℚ) (d : ℚ) : Prop := (∃ a ∈ lev, a ≤ d) ∧ ∃ b ∈ lev, d ≤ b

theorem mem_get (l : List ℚ) (x : ℚ) : x ∈ l ↔ ∃ k, get l k = some x := by
  constructor
  · intro h
    obtain ⟨i, hi⟩ := List.mem_iff_getElem?.mp h
    refine ⟨i + 1, ?_⟩
    unfold get
    rw [if_pos (by omega)]
    simpa using hi
  · rintro ⟨k, hk⟩
    unfold get at hk
    split at hk
    · exact List.mem_iff_getElem?.mpr ⟨_, hk⟩
    · simp at hk

theorem up_le (lev : List ℚ) (hl : Up lev) (i j : Int) (a b : ℚ) (h : i ≤ j) (ha : get lev i = some a)
    (hb : get lev j = some b) : a ≤ b := by
  rcases Int.lt_or_eq_of_le h with c | c
  · exact le_of_lt (pairwise_get _ lev hl i j a b c ha hb)
  · subst c
    rw [ha] at hb
    cases hb
    exact le_refl _

theorem down_le (lev : List ℚ) (hl : Down lev) (i j : Int) (a b : ℚ) (h : i ≤ j) (ha : get lev i = some a)
    (hb : get lev j = some b) : b ≤ a := by
  rcases Int.lt_or_eq_of_le h with c | c
  · exact le_of_lt (pairwise_get _ lev hl i j a b c ha hb)
  · subst c
    rw [ha] at hb
    cases hb
    exact le_refl _

/-- The two levels of a position, distinct, around a target inside of the levels. -/
theorem Placed.pair {inc : Bool} {lev : List ℚ} {d : ℚ} {p : Int} (h : Placed inc lev d p) :
    ∃ a b, get lev p = some a ∧ get lev (p + 1) = some b ∧ a ≠ b ∧
      (Inside lev d → a ≤ d ∧ d ≤ b ∨ b ≤ d ∧ d ≤ a) := by
  cases h with
  | up h hl hp =>
    obtain ⟨a, b, ha, hb, h1, h2⟩ := hp
    have hab := pairwise_get _ lev hl _ _ a b (by omega) ha hb
    refine ⟨a, b, ha, hb, ne_of_lt hab, fun hi => Or.inl ⟨?_, ?_⟩⟩
    · rcases h1 with h1 | h1
      · obtain ⟨⟨y, hy, hyd⟩, _⟩ := hi
        obtain ⟨k, hk⟩ := (mem_get _ _).mp hy
        have := up_le lev hl p k a y (by have := (get_lt _ _ _ hk).1; omega) ha hk
        linarith
      · exact h1
    · rcases h2 with h2 | h2
      · obtain ⟨_, y, hy, hyd⟩ := hi
        obtain ⟨k, hk⟩ := (mem_get _ _).mp hy
        have := up_le lev hl k (p + 1) y b (by have := (get_lt _ _ _ hk).2; omega) hk hb
        linarith
      · exact h2
  | down h hl hp =>
    obtain ⟨a, b, ha, hb, h1, h2⟩ := hp
    have hab := pairwise_get _ lev hl _ _ a b (by omega) ha hb
    refine ⟨a, b, ha, hb, ne_of_gt hab, fun hi => Or.inr ⟨?_, ?_⟩⟩
    · rcases h2 with h2 | h2
      · obtain ⟨⟨y, hy, hyd⟩, _⟩ := hi
        obtain ⟨k, hk⟩ := (mem_get _ _).mp hy
        have := down_le lev hl k (p + 1) y b (by have := (get_lt _ _ _ hk).2; omega) hk hb
        linarith
      · exact h2
    · rcases h1 with h1 | h1
      · obtain ⟨_, y, hy, hyd⟩ := hi
        obtain ⟨k, hk⟩ := (mem_get _ _).mp hy
        have := down_le lev hl p k a y (by have := (get_lt _ _ _ hk).1; omega) ha hk
        linarith
      · exact h1

theorem Placed.ends {inc : Bool} {lev : List ℚ} {d : ℚ} {p : Int} (h : Placed inc lev d p) :
    ∃ a b, get lev (smallest inc lev.length) = some a ∧ get lev (largest inc lev.length) = some b ∧
      (∀ x ∈ lev, a ≤ x ∧ x ≤ b) := by
  obtain ⟨x, y, hx, hy, _⟩ := h.pair
  have h1 := get_lt _ _ _ hx
  have h2 := get_lt _ _ _ hy
  obtain ⟨a, ha⟩ := get_some lev 1 (by omega) (by omega)
  obtain ⟨b, hb⟩ := get_some lev lev.length (by omega) (by omega)
  cases h with
  | up h hl hp =>
    subst h
    refine ⟨a, b, ha, hb, fun z hz => ?_⟩
    obtain ⟨k, hk⟩ := (mem_get _ _).mp hz
    have := get_lt _ _ _ hk
    exact ⟨up_le lev hl 1 k a z (by omega) ha hk, up_le lev hl k _ z b (by omega) hk hb⟩
  | down h hl hp =>
    subst h
    refine ⟨b, a, hb, ha, fun z hz => ?_⟩
    obtain ⟨k, hk⟩ := (mem_get _ _).mp hz
    have := get_lt _ _ _ hk
    exact ⟨down_le lev hl k _ z b (by omega) hk hb, down_le lev hl 1 k a z (by omega) ha hk⟩

/-- What the clamps do: the state of the lowest or of the highest level for targets beyond, on a side where
extrapolation is not enabled, and nothing else. -/
theorem clamp_spec {inc : Bool} {lev : List ℚ} {d : ℚ} {p : Int} (h : Placed inc lev d p) (e : Enable) (st : List ℚ)
    (hs : st.length = lev.length) (v : ℚ) : ∃ k : Int, ∃ l : Int, ∃ a b s t,
      get lev k = some a ∧ get lev l = some b ∧ (∀ x ∈ lev, a ≤ x ∧ x ≤ b) ∧
      get st k = some s ∧ get st l = some t ∧
      clamp inc e lev st d v =
        some (if e.down = false ∧ d < a then s else if e.up = false ∧ b < d then t else v) := by
  obtain ⟨a, b, ha, hb, hm⟩ := h.ends
  obtain ⟨s, h1⟩ := get_some st (smallest inc lev.length) (get_lt _ _ _ ha).1 (by rw [hs]; exact (get_lt _ _ _ ha).2)
  obtain ⟨t, h2⟩ := get_some st (largest inc lev.length) (get_lt _ _ _ hb).1 (by rw [hs]; exact (get_lt _ _ _ hb).2)
  refine ⟨_, _, a, b, s, t, ha, hb, hm, h1, h2, ?_⟩
  unfold clamp
  simp only [ha, hb, h1, h2, Option.bind_eq_bind, Option.bind_some, Option.pure_def]
  by_cases c1 : e.down = false ∧ d < a
  · rw [if_pos (by simp [c1]), if_pos c1]
  · rw [if_neg (by simpa using c1), if_neg c1]
    by_cases c2 : e.up = false ∧ b < d
    · rw [if_pos (by simp [c2]), if_pos c2]
    · rw [if_neg (by simpa using c2), if_neg c2]

theorem clamp_inside {inc : Bool} {lev : List ℚ} {d : ℚ} {p : Int} (h : Placed inc lev d p) (e : Enable) (st : List ℚ)
    (hs : st.length = lev.length) (v : ℚ) (hi : Inside lev d ∨ (e.down = true ∧ e.up = true)) :
    clamp inc e lev st d v = some v := by
  obtain ⟨k, l, a, b, s, t, ha, hb, hm, _, _, h3⟩ := clamp_spec h e st hs v
  rw [h3]
  rcases hi with ⟨⟨x, hx, hxd⟩, y, hy, hyd⟩ | ⟨h1, h2⟩
  · have := hm x hx
    have := hm y hy
    rw [if_neg (by rintro ⟨_, q⟩; linarith), if_neg (by rintro ⟨_, q⟩; linarith)]
  · simp [h1, h2]

/-- Line through two points. -/
theorem line_exact (a b s t d : ℚ) (h : a ≠ b) : line id a b s t d = s + (t - s) * ((d - a) / (b - a)) := by
  have : b - a ≠ 0 := sub_ne_zero.mpr (Ne.symm h)
  unfold line
  simp only [id]
  field_simp
  ring

theorem linear_eq (r : ℚ → ℚ) {inc : Bool} {lev : List ℚ} {d : ℚ} {p : Int} (h : Placed inc lev d p) (e : Enable)
    (st : List ℚ) (hs : st.length = lev.length) (a b s t : ℚ) (ha : get lev p = some a)
    (hb : get lev (p + 1) = some b) (h1 : get st p = some s) (h2 : get st (p + 1) = some t)
    (hi : Inside lev d ∨ (e.down = true ∧ e.up = true)) :
    linear r inc e lev st p d = some (line r a b s t d) := by
  have l1 := get_lt _ _ _ ha
  have l2 := get_lt _ _ _ hb
  unfold linear
  rw [if_neg (by omega)]
  simp only [ha, hb, h1, h2, Option.bind_eq_bind, Option.bind_some]
  exact clamp_inside h e st hs _ hi

/-- C67.  Linear interpolation, in exact arithmetic: when the state is an affine function of the level, its value at
the target is given, inside of the levels, and outside when extrapolation is enabled. -/
theorem C67_linear_affine {inc : Bool} {lev : List ℚ} {d : ℚ} {p : Int} (h : Placed inc lev d p) (e : Enable)
    (hi : Inside lev d ∨ (e.down = true ∧ e.up = true)) (α β : ℚ) :
    linear id inc e lev (lev.map fun x => α * x + β) p d = some (α * d + β) := by
  obtain ⟨a, b, ha, hb, hab, _⟩ := h.pair
  have hg : ∀ k x, get lev k = some x → get (lev.map fun x => α * x + β) k = some (α * x + β) := by
    intro k x hk
    unfold get at hk ⊢
    split at hk
    case isTrue c => rw [if_pos c, List.getElem?_map, hk]; rfl
    case isFalse => simp at hk
  rw [linear_eq id h e _ (by simp) a b _ _ ha hb (hg _ _ ha) (hg _ _ hb) hi, line_exact _ _ _ _ _ hab]
  have : b - a ≠ 0 := sub_ne_zero.mpr (Ne.symm hab)
  congr 1
  field_simp
  ring

/-- C67.  Linear interpolation inside of the levels, in exact arithmetic, lies between the states of the two levels of
the position. -/
theorem C67_linear_between {inc : Bool} {lev : List ℚ} {d : ℚ} {p : Int} (h : Placed inc lev d p) (e : Enable)
    (hi : Inside lev d) (st : List ℚ) (hs : st.length = lev.length) :
    ∃ s t v, get st p = some s ∧ get st (p + 1) = some t ∧ linear id inc e lev st p d = some v ∧
      min s t ≤ v ∧ v ≤ max s t := by
  obtain ⟨a, b, ha, hb, hab, hin⟩ := h.pair
  obtain ⟨s, h1⟩ := get_some st p (get_lt _ _ _ ha).1 (by rw [hs]; exact (get_lt _ _ _ ha).2)
  obtain ⟨t, h2⟩ := get_some st (p + 1) (get_lt _ _ _ hb).1 (by rw [hs]; exact (get_lt _ _ _ hb).2)
  refine ⟨s, t, _, h1, h2, linear_eq id h e st hs a b s t ha hb h1 h2 (Or.inl hi), ?_⟩
  rw [line_exact _ _ _ _ _ hab]
  have hu : 0 ≤ (d - a) / (b - a) ∧ (d - a) / (b - a) ≤ 1 := by
    rcases hin hi with ⟨q1, q2⟩ | ⟨q1, q2⟩
    · have : 0 < b - a := by
        rcases lt_or_gt_of_ne hab with c | c <;> linarith
      exact ⟨div_nonneg (by linarith) (by linarith), by rw [div_le_one this]; linarith⟩
    · have : b - a < 0 := by
        rcases lt_or_gt_of_ne hab with c | c <;> linarith
      exact ⟨div_nonneg_of_nonpos (by linarith) (by linarith), by rw [div_le_one_of_neg this]; linarith⟩
  generalize (d - a) / (b - a) = τ at hu
  obtain ⟨u1, u2⟩ := hu
  have e1 : s + (t - s) * τ = s * (1 - τ) + t * τ := by ring
  rw [e1]
  have m1 := min_le_left s t
  have m2 := min_le_right s t
  have m3 := le_max_left s t
  have m4 := le_max_right s t
  constructor <;> nlinarith

/-- C67.  In any arithmetic that keeps zero and the states, linear interpolation gives the state of the level of its
position at that level. -/
theorem C67_linear_level (r : ℚ → ℚ) (h0 : r 0 = 0) {inc : Bool} {lev : List ℚ} {d : ℚ} {p : Int}
    (h : Placed inc lev d p) (e : Enable) (st : List ℚ) (hs : st.length = lev.length) (hr : ∀ s ∈ st, r s = s)
    (hd : get lev p = some d) : linear r inc e lev st p d = get st p := by
  obtain ⟨a, b, ha, hb, hab, _⟩ := h.pair
  obtain ⟨s, h1⟩ := get_some st p (get_lt _ _ _ ha).1 (by rw [hs]; exact (get_lt _ _ _ ha).2)
  obtain ⟨t, h2⟩ := get_some st (p + 1) (get_lt _ _ _ hb).1 (by rw [hs]; exact (get_lt _ _ _ hb).2)
  rw [hd] at ha
  cases ha
  have hm : d ∈ lev := (mem_get _ _).mpr ⟨p, hd⟩
  rw [linear_eq r h e st hs d b s t hd hb h1 h2 (Or.inl ⟨⟨d, hm, le_refl _⟩, d, hm, le_refl _⟩), h1]
  unfold line
  simp only [sub_self, h0, mul_zero, zero_add]
  rw [hr s ((mem_get _ _).mpr ⟨p, h1⟩)]

/-- Relative error of a rounding, where nothing overflows or underflows. -/
def Close (ε : ℚ) (r : ℚ → ℚ) : Prop := ∀ x, |r x - x| ≤ ε * |x|

theorem Close.factor {ε : ℚ} {r : ℚ → ℚ} (h : Close ε r) (h0 : 0 ≤ ε) (x : ℚ) :
    ∃ δ, |δ| ≤ ε ∧ r x = x * (1 + δ) := by
  by_cases c : x = 0
  · refine ⟨0, by simpa using h0, ?_⟩
    have := h x
    rw [c] at this ⊢
    simp only [sub_zero, abs_zero, mul_zero] at this
    have := abs_nonpos_iff.mp this
    rw [this]
    simp
  · refine ⟨(r x - x) / x, ?_, ?_⟩
    · rw [abs_div, div_le_iff₀ (abs_pos.mpr c)]
      exact h x
    · field_simp
      ring

theorem near_mul (P Q A B : ℚ) (h1 : |P - 1| ≤ A) (h2 : |Q - 1| ≤ B) : |P * Q - 1| ≤ A + B + A * B := by
  have e : P * Q - 1 = (P - 1) + (Q - 1) + (P - 1) * (Q - 1) := by ring
  rw [e]
  have := abs_nonneg (P - 1)
  have := abs_nonneg (Q - 1)
  calc |(P - 1) + (Q - 1) + (P - 1) * (Q - 1)| ≤ |(P - 1) + (Q - 1)| + |(P - 1) * (Q - 1)| := abs_add_le _ _
    _ ≤ |P - 1| + |Q - 1| + |P - 1| * |Q - 1| := by
        rw [abs_mul]
        have := abs_add_le (P - 1) (Q - 1)
        linarith
    _ ≤ A + B + A * B := by nlinarith

theorem near_div (P e2 ε : ℚ) (hε : 0 ≤ ε) (hε' : ε ≤ 1 / 100)
    (h : |P - 1| ≤ ε + ε + ε * ε + (ε + ε + ε * ε) + (ε + ε + ε * ε) * (ε + ε + ε * ε)) (h2 : |e2| ≤ ε) :
    |P / (1 + e2) - 1| ≤ 6 * ε := by
  have n2 : 99 / 100 ≤ 1 + e2 := by
    have := (abs_le.mp h2).1
    linarith
  have n2' : (1 + e2) ≠ 0 := by intro c; rw [c] at n2; norm_num at n2
  have k2 : 99 / 100 ≤ |1 + e2| := le_trans n2 (le_abs_self _)
  have k3 : ε * ε ≤ 1 / 100 * ε := mul_le_mul_of_nonneg_right hε' hε
  have k0 : 0 ≤ ε * ε := mul_nonneg hε hε
  have k4 : |P - 1| ≤ 42 / 10 * ε := by
    generalize ε * ε = q at *
    have hy : ε + ε + q ≤ 201 / 100 * ε := by linarith
    have hy0 : ε + ε + q ≤ 3 / 100 := by linarith
    have : (ε + ε + q) * (ε + ε + q) ≤ 3 / 100 * (ε + ε + q) := mul_le_mul_of_nonneg_right hy0 (by linarith)
    linarith
  have : P / (1 + e2) - 1 = (P - 1 - e2) / (1 + e2) := by field_simp; ring
  rw [this, abs_div, div_le_iff₀ (abs_pos.mpr n2')]
  have k1 : |P - 1 - e2| ≤ |P - 1| + |e2| := abs_sub _ _
  have k5 : 6 * ε * (99 / 100) ≤ 6 * ε * |1 + e2| := mul_le_mul_of_nonneg_left k2 (by linarith)
  linarith

/-- C67.  Linear interpolation inside of the levels with rounded operations, each of relative error at most `ε`, is
within `8 ε (|s| + |t|)` of the straight line through the states `s` and `t` of the two levels. -/
theorem C67_linear_error (ε : ℚ) (r : ℚ → ℚ) (hr : Close ε r) (hε : 0 ≤ ε) (hε' : ε ≤ 1 / 100) {inc : Bool}
    {lev : List ℚ} {d : ℚ} {p : Int} (h : Placed inc lev d p) (e : Enable) (hi : Inside lev d) (st : List ℚ)
    (hs : st.length = lev.length) :
    ∃ a b s t v, get lev p = some a ∧ get lev (p + 1) = some b ∧ get st p = some s ∧ get st (p + 1) = some t ∧
      linear r inc e lev st p d = some v ∧
      |v - (s + (t - s) * ((d - a) / (b - a)))| ≤ 8 * ε * (|s| + |t|) := by
  obtain ⟨a, b, ha, hb, hab, hin⟩ := h.pair
  obtain ⟨s, h1⟩ := get_some st p (get_lt _ _ _ ha).1 (by rw [hs]; exact (get_lt _ _ _ ha).2)
  obtain ⟨t, h2⟩ := get_some st (p + 1) (get_lt _ _ _ hb).1 (by rw [hs]; exact (get_lt _ _ _ hb).2)
  refine ⟨a, b, s, t, _, ha, hb, h1, h2, linear_eq r h e st hs a b s t ha hb h1 h2 (Or.inl hi), ?_⟩
  have hba : b - a ≠ 0 := sub_ne_zero.mpr (Ne.symm hab)
  have hu : 0 ≤ (d - a) / (b - a) ∧ (d - a) / (b - a) ≤ 1 := by
    rcases hin hi with ⟨q1, q2⟩ | ⟨q1, q2⟩
    · have : 0 < b - a := by
        rcases lt_or_gt_of_ne hab with c | c <;> linarith
      exact ⟨div_nonneg (by linarith) (by linarith), by rw [div_le_one this]; linarith⟩
    · have : b - a < 0 := by
        rcases lt_or_gt_of_ne hab with c | c <;> linarith
      exact ⟨div_nonneg_of_nonpos (by linarith) (by linarith), by rw [div_le_one_of_neg this]; linarith⟩
  unfold line
  dsimp only
  obtain ⟨e1, g1, q1⟩ := hr.factor hε (t - s)
  obtain ⟨e2, g2, q2⟩ := hr.factor hε (b - a)
  obtain ⟨e4, g4, q4⟩ := hr.factor hε (d - a)
  rw [q1, q2, q4]
  obtain ⟨e3, g3, q3⟩ := hr.factor hε ((t - s) * (1 + e1) / ((b - a) * (1 + e2)))
  rw [q3]
  obtain ⟨e5, g5, q5⟩ := hr.factor hε ((t - s) * (1 + e1) / ((b - a) * (1 + e2)) * (1 + e3) * ((d - a) * (1 + e4)))
  rw [q5]
  have n2 : 99 / 100 ≤ 1 + e2 := by
    have := (abs_le.mp g2).1
    linarith
  have n2' : (1 + e2) ≠ 0 := by intro c; rw [c] at n2; norm_num at n2
  have ef : (t - s) * (1 + e1) / ((b - a) * (1 + e2)) * (1 + e3) * ((d - a) * (1 + e4)) * (1 + e5) =
      (t - s) * ((d - a) / (b - a)) * ((1 + e1) * (1 + e3) * ((1 + e4) * (1 + e5)) / (1 + e2)) := by
    field_simp
  rw [ef]
  obtain ⟨e6, g6, q6⟩ := hr.factor hε ((t - s) * ((d - a) / (b - a)) *
    ((1 + e1) * (1 + e3) * ((1 + e4) * (1 + e5)) / (1 + e2)) + s)
  rw [q6]
  have c1 : ∀ δ : ℚ, |δ| ≤ ε → |(1 + δ) - 1| ≤ ε := fun δ h => by rwa [add_sub_cancel_left]
  have m1 := near_mul _ _ _ _ (c1 _ g1) (c1 _ g3)
  have m2 := near_mul _ _ _ _ (c1 _ g4) (c1 _ g5)
  have m3 := near_mul _ _ _ _ m1 m2
  have hF : |(1 + e1) * (1 + e3) * ((1 + e4) * (1 + e5)) / (1 + e2) - 1| ≤ 6 * ε := by
    exact near_div _ _ _ hε hε' m3 g2
  generalize (1 + e1) * (1 + e3) * ((1 + e4) * (1 + e5)) / (1 + e2) = F at hF
  generalize (d - a) / (b - a) = τ at hu
  obtain ⟨u1, u2⟩ := hu
  have e7 : ((t - s) * τ * F + s) * (1 + e6) - (s + (t - s) * τ) =
      (t - s) * τ * (F - 1) * (1 + e6) + (s * (1 - τ) + t * τ) * e6 := by ring
  rw [e7]
  have b1 : |(t - s) * τ * (F - 1) * (1 + e6)| ≤ (|s| + |t|) * (6 * ε) * (101 / 100) := by
    rw [abs_mul, abs_mul, abs_mul]
    have k1 : |t - s| ≤ |s| + |t| := by
      have := abs_sub t s
      linarith
    have k2 : |τ| ≤ 1 := by rw [abs_of_nonneg u1]; exact u2
    have k3 : |1 + e6| ≤ 101 / 100 := by
      rw [abs_le]
      have := abs_le.mp g6
      constructor <;> linarith
    have p1 : |t - s| * |τ| ≤ (|s| + |t|) * 1 := mul_le_mul k1 k2 (abs_nonneg _) (by positivity)
    rw [mul_one] at p1
    have p2 : |t - s| * |τ| * |F - 1| ≤ (|s| + |t|) * (6 * ε) :=
      mul_le_mul p1 hF (abs_nonneg _) (by positivity)
    exact mul_le_mul p2 k3 (abs_nonneg _) (by positivity)
  have b2 : |(s * (1 - τ) + t * τ) * e6| ≤ (|s| + |t|) * ε := by
    rw [abs_mul]
    apply mul_le_mul _ g6 (abs_nonneg _) (by positivity)
    have k1 : |s * (1 - τ)| ≤ |s| := by
      rw [abs_mul]
      have : |1 - τ| ≤ 1 := by rw [abs_le]; constructor <;> linarith
      exact mul_le_of_le_one_right (abs_nonneg s) this
    have k2 : |t * τ| ≤ |t| := by
      rw [abs_mul]
      have : |τ| ≤ 1 := by rw [abs_le]; constructor <;> linarith
      exact mul_le_of_le_one_right (abs_nonneg t) this
    have := abs_add_le (s * (1 - τ)) (t * τ)
    linarith
  have b3 := abs_add_le ((t - s) * τ * (F - 1) * (1 + e6)) ((s * (1 - τ) + t * τ) * e6)
  have b4 : 0 ≤ (|s| + |t|) * ε := by positivity
  linarith
