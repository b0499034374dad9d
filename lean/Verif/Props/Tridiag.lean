import Verif.Tridiag
import Mathlib.Tactic

namespace Verif.Tridiag

/-! # C130: tri-diagonal systems -/

/-- Two arrays of `n` numbers do not overlap. -/
def Apart (n x y : Nat) : Prop := x + n ≤ y ∨ y + n ≤ x

/-- The arrays that may be the same: the solution may be in the place of the super-diagonal, and the work vector in
that of the sub-diagonal, the super-diagonal or the right-hand side, as long as both are not in the same place. -/
structure Layout (p a e c d n : Nat) : Prop where
  pa : Apart n p a
  pe : Apart n p e
  pd : Apart n p d
  pc : p = c ∨ Apart n p c
  ea : e = a ∨ Apart n e a
  ec : e = c ∨ Apart n e c
  ed : e = d ∨ Apart n e d
  ca : Apart n c a
  cd : Apart n c d

/-- The equations: unknowns `P`, diagonal 1. -/
def Solves (n : Nat) (A C D P : Nat → ℚ) : Prop :=
  ∀ i < n, (if i = 0 then 0 else A i * P (i - 1)) + P i + (if i + 1 < n then C i * P (i + 1) else 0) = D i

theorem Apart.ne {n x y i j : Nat} (h : Apart n x y) (hi : i < n) (hj : j < n) : x + i ≠ y + j := by
  rcases h with h | h <;> omega

theorem ne_of_eq_or {n x y i j : Nat} (h : x = y ∨ Apart n x y) (hi : i < n) (hj : j < n) (hij : i ≠ j) :
    x + i ≠ y + j := by
  rcases h with h | h
  · omega
  · exact h.ne hi hj

/-- The factors and the right-hand sides of the elimination. -/
def elim (A C D : Nat → ℚ) : Nat → ℚ × ℚ
  | 0 => (-C 0, D 0)
  | i + 1 =>
    let q := elim A C D i
    (-C (i + 1) * (1 / (1 + A (i + 1) * q.1)), (D (i + 1) - A (i + 1) * q.2) * (1 / (1 + A (i + 1) * q.1)))

/-- What is true after `k` turns. -/
structure Inv (p a e c d n : Nat) (A C D : Nat → ℚ) (m0 : Mem) (k : Nat) (m : Mem) : Prop where
  hp : ∀ j ≤ k, m (p + j) = (elim A C D j).1
  he : ∀ j ≤ k, m (e + j) = (elim A C D j).2
  hc : ∀ j, k < j → j < n → m (c + j) = C j
  hd : ∀ j, k < j → j < n → m (d + j) = D j
  ha : ∀ j, k < j → j < n → m (a + j) = A j
  hk : ∀ j < k, 1 + A (j + 1) * (elim A C D j).1 ≠ 0
  ho : ∀ q, (∀ j < n, q ≠ p + j) → (∀ j < n, q ≠ e + j) → q ≠ c + (n - 1) → m q = m0 q

theorem set_same (m : Mem) (k : Nat) (v : ℚ) : set m k v k = v := if_pos rfl

theorem set_ne {m : Mem} {k j : Nat} {v : ℚ} (h : j ≠ k) : set m k v j = m j := if_neg h

/-- The super-diagonal with 0 at the end. -/
def cut (n : Nat) (C : Nat → ℚ) (i : Nat) : ℚ := if i = n - 1 then 0 else C i

theorem begin_inv {p a e c d n : Nat} (h : Layout p a e c d n) (hn : 0 < n) (m : Mem) :
    Inv p a e c d n (fun i => m (a + i)) (cut n fun i => m (c + i)) (fun i => m (d + i)) m 0 (begin p e c d n m) := by
  have hc0 : ∀ j < n, set m (c + (n - 1)) 0 (c + j) = cut n (fun i => m (c + i)) j := by
    intro j hj
    unfold cut
    by_cases hjn : j = n - 1
    · subst hjn; rw [set_same, if_pos rfl]
    · rw [set_ne (by omega), if_neg hjn]
  have h0 : ∀ x : Nat, x + 0 = x := fun _ => rfl
  constructor
  · intro j hj
    obtain rfl : j = 0 := by omega
    have := h.pe.ne hn hn
    rw [h0, h0] at this
    simp only [begin, elim, h0]
    rw [set_ne this, set_same]
    have := hc0 0 hn
    rw [h0] at this
    rw [this]
  · intro j hj
    obtain rfl : j = 0 := by omega
    simp only [begin, elim, h0]
    rw [set_same]
    have h1 := h.pd.ne hn hn
    have h2 := h.cd.ne (show n - 1 < n by omega) hn
    rw [h0] at h1 h2
    rw [h0] at h1
    rw [set_ne h1.symm, set_ne h2.symm]
  · intro j hj hjn
    simp only [begin]
    have h1 := ne_of_eq_or h.pc hn hjn (by omega)
    have h2 := ne_of_eq_or h.ec hn hjn (by omega)
    rw [h0] at h1 h2
    rw [set_ne h2.symm, set_ne h1.symm]
    exact hc0 j hjn
  · intro j hj hjn
    simp only [begin]
    have h1 := h.pd.ne hn hjn
    have h2 := ne_of_eq_or h.ed hn hjn (by omega)
    have h3 := h.cd.ne (show n - 1 < n by omega) hjn
    rw [h0] at h1 h2
    rw [set_ne h2.symm, set_ne h1.symm, set_ne h3.symm]
  · intro j hj hjn
    simp only [begin]
    have h1 := h.pa.ne hn hjn
    have h2 := ne_of_eq_or h.ea hn hjn (by omega)
    have h3 := h.ca.ne (show n - 1 < n by omega) hjn
    rw [h0] at h1 h2
    rw [set_ne h2.symm, set_ne h1.symm, set_ne h3.symm]
  · intro j hj; omega
  · intro q h1 h2 h3
    simp only [begin]
    have h1 := h1 0 hn
    have h2 := h2 0 hn
    rw [h0] at h1 h2
    rw [set_ne h2, set_ne h1, set_ne h3]

theorem step_inv {p a e c d n : Nat} (h : Layout p a e c d n) {A C D : Nat → ℚ} {m0 m m' : Mem} {k : Nat}
    (hk : k + 1 < n) (hi : Inv p a e c d n A C D m0 k m) (hs : step p a e c d m k = some m') :
    Inv p a e c d n A C D m0 (k + 1) m' := by
  simp only [step] at hs
  have hkn : k < n := by omega
  rw [hi.ha (k + 1) (by omega) hk, hi.hp k le_rfl, hi.hc (k + 1) (by omega) hk] at hs
  have hpd : set m (p + (k + 1)) (-C (k + 1) * (1 / (1 + A (k + 1) * (elim A C D k).1))) (d + (k + 1)) = D (k + 1) := by
    rw [set_ne (h.pd.ne hk hk).symm, hi.hd (k + 1) (by omega) hk]
  have hpa : set m (p + (k + 1)) (-C (k + 1) * (1 / (1 + A (k + 1) * (elim A C D k).1))) (a + (k + 1)) = A (k + 1) := by
    rw [set_ne (h.pa.ne hk hk).symm, hi.ha (k + 1) (by omega) hk]
  have hpe : set m (p + (k + 1)) (-C (k + 1) * (1 / (1 + A (k + 1) * (elim A C D k).1))) (e + k) = (elim A C D k).2 := by
    rw [set_ne (h.pe.ne hk hkn).symm, hi.he k le_rfl]
  rw [hpd, hpa, hpe] at hs
  split_ifs at hs with ht
  rw [Option.some.injEq] at hs
  subst hs
  constructor
  · intro j hj
    rw [set_ne (h.pe.ne (by omega) hk)]
    rcases Nat.lt_or_ge j (k + 1) with hj' | hj'
    · rw [set_ne (by omega), hi.hp j (by omega)]
    · obtain rfl : j = k + 1 := by omega
      rw [set_same, elim]
  · intro j hj
    rcases Nat.lt_or_ge j (k + 1) with hj' | hj'
    · rw [set_ne (by omega), set_ne (h.pe.ne hk (by omega)).symm, hi.he j (by omega)]
    · obtain rfl : j = k + 1 := by omega
      rw [set_same, elim]
  · intro j hj hjn
    rw [set_ne (ne_of_eq_or h.ec hk hjn (by omega)).symm, set_ne (ne_of_eq_or h.pc hk hjn (by omega)).symm,
      hi.hc j (by omega) hjn]
  · intro j hj hjn
    rw [set_ne (ne_of_eq_or h.ed hk hjn (by omega)).symm, set_ne (h.pd.ne hk hjn).symm, hi.hd j (by omega) hjn]
  · intro j hj hjn
    rw [set_ne (ne_of_eq_or h.ea hk hjn (by omega)).symm, set_ne (h.pa.ne hk hjn).symm, hi.ha j (by omega) hjn]
  · intro j hj
    rcases Nat.lt_or_ge j k with hj' | hj'
    · exact hi.hk j hj'
    · obtain rfl : j = k := by omega
      exact ht
  · intro q h1 h2 h3
    rw [set_ne (h2 _ hk), set_ne (h1 _ hk), hi.ho q h1 h2 h3]

theorem forward_inv {p a e c d n : Nat} (h : Layout p a e c d n) {A C D : Nat → ℚ} {m0 m : Mem}
    (hi : Inv p a e c d n A C D m0 0 m) : ∀ (k : Nat) (m' : Mem), k < n → forward p a e c d m k = some m' →
      Inv p a e c d n A C D m0 k m' := by
  intro k
  induction k with
  | zero => intro m' _ hs; rw [forward, Option.some.injEq] at hs; rwa [← hs]
  | succ k ih =>
    intro m' hk hs
    rw [forward, Option.bind_eq_some_iff] at hs
    obtain ⟨m1, hm1, hs⟩ := hs
    exact step_inv h hk (ih m1 (by omega) hm1) hs

/-- The solution, from the last unknown down. -/
def sol (A C D : Nat → ℚ) (n : Nat) : Nat → ℚ
  | 0 => (elim A C D (n - 1)).2
  | k + 1 => (elim A C D (n - 1 - (k + 1))).1 * sol A C D n k + (elim A C D (n - 1 - (k + 1))).2

theorem back_spec {p e n : Nat} (hpe : Apart n p e) {A C D : Nat → ℚ} : ∀ (k : Nat) (m : Mem), k < n →
    m (p + k) = sol A C D n (n - 1 - k) → (∀ j < k, m (p + j) = (elim A C D j).1) →
    (∀ j < k, m (e + j) = (elim A C D j).2) →
    (∀ j ≤ k, back p e k m (p + j) = sol A C D n (n - 1 - j)) ∧
      ∀ q, (∀ j < k, q ≠ p + j) → back p e k m q = m q := by
  intro k
  induction k with
  | zero =>
    intro m _ h0 _ _
    exact ⟨fun j hj => by obtain rfl : j = 0 := by omega
                          exact h0, fun q _ => rfl⟩
  | succ k ih =>
    intro m hk h0 h1 h2
    have hv : m (p + k) * m (p + k + 1) + m (e + k) = sol A C D n (n - 1 - k) := by
      have e1 : n - 1 - k = (n - 1 - (k + 1)) + 1 := by omega
      have e2 : n - 1 - ((n - 1 - (k + 1)) + 1) = k := by omega
      rw [e1, sol, e2, h1 k (by omega), h2 k (by omega), add_assoc, h0]
    obtain ⟨g1, g2⟩ := ih (set m (p + k) (m (p + k) * m (p + k + 1) + m (e + k))) (by omega)
      (by rw [set_same, hv])
      (fun j hj => by rw [set_ne (by omega), h1 j (by omega)])
      (fun j hj => by rw [set_ne (hpe.ne (by omega) (by omega)).symm, h2 j (by omega)])
    constructor
    · intro j hj
      rcases Nat.lt_or_ge j (k + 1) with hj' | hj'
      · exact g1 j (by omega)
      · obtain rfl : j = k + 1 := by omega
        rw [back, g2 _ (fun j hj => by omega), set_ne (by omega), h0]
    · intro q hq
      rw [back, g2 q fun j hj => hq j (by omega), set_ne (hq k (by omega))]

theorem solves_sol {A C D : Nat → ℚ} {n : Nat} (hn : 0 < n)
    (ht : ∀ j < n - 1, 1 + A (j + 1) * (elim A (cut n C) D j).1 ≠ 0) :
    Solves n A C D fun i => sol A (cut n C) D n (n - 1 - i) := by
  have hrec : ∀ i, i + 1 < n → sol A (cut n C) D n (n - 1 - i) =
      (elim A (cut n C) D i).1 * sol A (cut n C) D n (n - 1 - (i + 1)) + (elim A (cut n C) D i).2 := by
    intro i hi
    have e1 : n - 1 - i = (n - 1 - (i + 1)) + 1 := by omega
    have e2 : n - 1 - ((n - 1 - (i + 1)) + 1) = i := by omega
    rw [e1, sol, e2]
  -- all equations in one: `sol i` with the part of the next unknown
  have hnext : ∀ i < n, sol A (cut n C) D n (n - 1 - i) - (elim A (cut n C) D i).2 =
      (elim A (cut n C) D i).1 * (if i + 1 < n then sol A (cut n C) D n (n - 1 - (i + 1)) else 0) := by
    intro i hi
    split_ifs with hi'
    · rw [hrec i hi']; ring
    · obtain rfl : i = n - 1 := by omega
      rw [Nat.sub_self, sol]; ring
  have hC : ∀ i < n, cut n C i * (if i + 1 < n then sol A (cut n C) D n (n - 1 - (i + 1)) else 0) =
      if i + 1 < n then C i * sol A (cut n C) D n (n - 1 - (i + 1)) else 0 := by
    intro i hi
    split_ifs with hi'
    · rw [cut, if_neg (by omega)]
    · ring
  intro i hi
  cases i with
  | zero =>
    have h1 := hnext 0 hi
    have h2 := hC 0 hi
    simp only [if_true]
    rw [← h2]
    simp only [elim] at h1
    linear_combination h1
  | succ i =>
    have h0 := hrec i hi
    have h1 := hnext (i + 1) hi
    have h2 := hC (i + 1) hi
    have h3 := ht i (by omega)
    rw [if_neg (by omega : ¬ i + 1 = 0), ← h2]
    simp only [elim, Nat.add_sub_cancel] at h1 ⊢
    rw [h0]
    field_simp at h1
    linear_combination h1

/-- C130: what `ROSSR3` returns solves the system that was given, also when arrays are shared; nothing is changed but
the solution, the work vector and the last number of the super-diagonal. -/
theorem C130 {p a e c d n : Nat} (h : Layout p a e c d n) {m m' : Mem} (hr : rossr3 p a e c d n m = some m') :
    Solves n (fun i => m (a + i)) (fun i => m (c + i)) (fun i => m (d + i)) (fun i => m' (p + i)) ∧
      ∀ q, (∀ j < n, q ≠ p + j) → (∀ j < n, q ≠ e + j) → q ≠ c + (n - 1) → m' q = m q := by
  unfold rossr3 at hr
  split_ifs at hr with hn
  have hn : 0 < n := by omega
  rw [Option.map_eq_some_iff] at hr
  obtain ⟨m1, hm1, rfl⟩ := hr
  have hi := forward_inv h (begin_inv h hn m) (n - 1) m1 (by omega) hm1
  obtain ⟨g1, g2⟩ := back_spec (e := e) h.pe (A := fun i => m (a + i)) (C := cut n fun i => m (c + i))
    (D := fun i => m (d + i)) (n - 1) (set m1 (p + (n - 1)) (m1 (e + (n - 1)))) (by omega)
    (by rw [set_same, Nat.sub_self, sol, hi.he (n - 1) le_rfl])
    (fun j hj => by rw [set_ne (by omega), hi.hp j (by omega)])
    (fun j hj => by rw [set_ne (h.pe.ne (by omega) (by omega)).symm, hi.he j (by omega)])
  constructor
  · have := solves_sol (A := fun i => m (a + i)) (C := fun i => m (c + i)) (D := fun i => m (d + i)) hn hi.hk
    intro i hin
    have := this i hin
    dsimp only at this ⊢
    rw [g1 i (by omega)]
    by_cases h0 : i = 0
    · subst h0
      rw [if_pos rfl] at this ⊢
      split_ifs at this ⊢ with h2
      · rw [g1 (0 + 1) (by omega)]; exact this
      · exact this
    · rw [if_neg h0, g1 (i - 1) (by omega)]
      rw [if_neg h0] at this
      split_ifs at this ⊢ with h2
      · rw [g1 (i + 1) (by omega)]; exact this
      · exact this
  · intro q h1 h2 h3
    rw [g2 q fun j hj => h1 j (by omega), set_ne (h1 _ (by omega)), hi.ho q h1 h2 h3]

theorem elim_small {A C D : Nat → ℚ} {n : Nat} (h0 : |C 0| < 1) (h : ∀ i, 0 < i → i < n → |A i| + |C i| < 1) :
    ∀ i < n, |(elim A C D i).1| < 1 := by
  intro i
  induction i with
  | zero => intro _; simpa [elim] using h0
  | succ i ih =>
    intro hi
    have h1 := ih (by omega)
    have h2 := h (i + 1) (by omega) hi
    simp only [elim]
    have h3 : |A (i + 1) * (elim A C D i).1| ≤ |A (i + 1)| := by
      rw [abs_mul]; exact mul_le_of_le_one_right (abs_nonneg _) h1.le
    have h4 : 1 - |A (i + 1)| ≤ 1 + A (i + 1) * (elim A C D i).1 := by
      have := neg_abs_le (A (i + 1) * (elim A C D i).1); linarith
    have h5 : 0 < 1 + A (i + 1) * (elim A C D i).1 := by
      have := abs_nonneg (C (i + 1)); linarith
    rw [mul_one_div, abs_div, abs_neg, abs_of_pos h5, div_lt_one h5]
    linarith

/-- C130: a system whose diagonal dominates is solved. -/
theorem C130_total {p a e c d n : Nat} (h : Layout p a e c d n) (m : Mem) (hn : 0 < n)
    (h0 : 1 < n → |m c| < 1)
    (hdom : ∀ i, 0 < i → i + 1 < n → |m (a + i)| + |m (c + i)| < 1) (hlast : 1 < n → |m (a + (n - 1))| < 1) :
    ∃ m', rossr3 p a e c d n m = some m' := by
  have hsmall := elim_small (A := fun i => m (a + i)) (C := cut n fun i => m (c + i)) (D := fun i => m (d + i)) (n := n)
    (by
      unfold cut
      split_ifs with h1
      · simp
      · exact h0 (by omega))
    (by
      intro i hi hin
      unfold cut
      split_ifs with h1
      · subst h1; simpa using hlast (by omega)
      · exact hdom i hi (by omega))
  have hf : ∀ k < n, ∃ m', forward p a e c d (begin p e c d n m) k = some m' := by
    intro k
    induction k with
    | zero => intro _; exact ⟨_, rfl⟩
    | succ k ih =>
      intro hk
      obtain ⟨m1, hm1⟩ := ih (by omega)
      have hi := forward_inv h (begin_inv h hn m) k m1 (by omega) hm1
      rw [forward, hm1]
      simp only [Option.bind_some, step]
      rw [hi.ha (k + 1) (by omega) hk, hi.hp k le_rfl]
      have h1 := hsmall k (by omega)
      have h2 : |m (a + (k + 1))| < 1 := by
        by_cases hkn : k + 1 = n - 1
        · rw [hkn]; exact hlast (by omega)
        · have := hdom (k + 1) (by omega) (by omega)
          have := abs_nonneg (m (c + (k + 1)))
          linarith
      have h3 : 1 + m (a + (k + 1)) * (elim (fun i => m (a + i)) (cut n fun i => m (c + i)) (fun i => m (d + i)) k).1 ≠ 0 := by
        have h4 : |m (a + (k + 1)) * (elim (fun i => m (a + i)) (cut n fun i => m (c + i)) (fun i => m (d + i)) k).1| < 1 := by
          rw [abs_mul]; exact mul_lt_one_of_nonneg_of_lt_one_left (abs_nonneg _) h2 h1.le
        have := neg_abs_le (m (a + (k + 1)) * (elim (fun i => m (a + i)) (cut n fun i => m (c + i)) (fun i => m (d + i)) k).1)
        intro h5; linarith
      rw [if_neg h3]
      exact ⟨_, rfl⟩
  obtain ⟨m1, hm1⟩ := hf (n - 1) (by omega)
  rw [rossr3, if_neg (by omega), hm1]
  exact ⟨_, rfl⟩

/-- C130: when there is a result it is the only solution. -/
theorem C130_unique {p a e c d n : Nat} (h : Layout p a e c d n) {m m' : Mem} (hr : rossr3 p a e c d n m = some m')
    {Q : Nat → ℚ} (hQ : Solves n (fun i => m (a + i)) (fun i => m (c + i)) (fun i => m (d + i)) Q) :
    ∀ i < n, Q i = m' (p + i) := by
  obtain ⟨hP, -⟩ := C130 h hr
  unfold rossr3 at hr
  split_ifs at hr with hn
  have hn : 0 < n := by omega
  rw [Option.map_eq_some_iff] at hr
  obtain ⟨m1, hm1, -⟩ := hr
  have hi := forward_inv h (begin_inv h hn m) (n - 1) m1 (by omega) hm1
  have ht : ∀ j < n - 1, 1 + (fun i => m (a + i)) (j + 1) *
      (elim (fun i => m (a + i)) (cut n fun i => m (c + i)) (fun i => m (d + i)) j).1 ≠ 0 := hi.hk
  generalize hA : (fun i => m (a + i)) = A at *
  generalize hC : (fun i => m (c + i)) = C at *
  generalize hD : (fun i => m (d + i)) = D at *
  -- each solution satisfies the eliminated equations
  have key : ∀ R, Solves n A C D R → ∀ i < n, R i = (elim A (cut n C) D i).1 * (if i + 1 < n then R (i + 1) else 0) +
      (elim A (cut n C) D i).2 := by
    intro R hR i
    have hc : ∀ i < n, (if i + 1 < n then C i * R (i + 1) else 0) = cut n C i * (if i + 1 < n then R (i + 1) else 0) := by
      intro i hi
      split_ifs with hi'
      · rw [cut, if_neg (by omega)]
      · ring
    induction i with
    | zero =>
      intro hi
      have h1 := hR 0 hi
      rw [hc 0 hi] at h1
      simp only [if_true] at h1
      simp only [elim]
      linear_combination h1
    | succ i ih =>
      intro hi
      have h0 := ih (by omega)
      rw [if_pos hi] at h0
      have h1 := hR (i + 1) hi
      rw [hc (i + 1) hi, if_neg (by omega : ¬ i + 1 = 0), Nat.add_sub_cancel, h0] at h1
      have h3 := ht i (by omega)
      simp only [elim]
      field_simp
      linear_combination h1
  have hk : ∀ k, k < n → Q (n - 1 - k) = m' (p + (n - 1 - k)) := by
    intro k
    induction k with
    | zero =>
      intro _
      rw [key Q hQ _ (by omega)]
      have := key _ hP (n - 1 - 0) (by omega)
      rw [this, if_neg (by omega), if_neg (by omega)]
    | succ k ih =>
      intro hkn
      rw [key Q hQ _ (by omega)]
      have := key _ hP (n - 1 - (k + 1)) (by omega)
      rw [this, if_pos (by omega), if_pos (by omega), show n - 1 - (k + 1) + 1 = n - 1 - k by omega, ih (by omega)]
  intro i hin
  have := hk (n - 1 - i) (by omega)
  rwa [show n - 1 - (n - 1 - i) = i by omega] at this

/-- Sub-diagonal at 0, super-diagonal and solution at 3, right-hand side and work vector at 6. -/
def shared : Mem := fun k => [0, 1 / 2, 1 / 3, 1 / 2, 1 / 4, 7, 1, 2, 3].getD k 0

example : Layout 3 0 6 3 6 3 := by constructor <;> unfold Apart <;> omega

example : (rossr3 3 0 6 3 6 3 shared).map (fun m => [m 3, m 4, m 5]) = some [7 / 16, 9 / 8, 21 / 8] := by decide +kernel

/-- The condition of the comments, `ABS(A(I) + C(I)) .LE. 1`, is not enough: with it a division by zero is possible
though the system has one solution. -/
theorem C130_condition_witness :
    ∃ m : Mem, (∀ i < 3, |m (0 + i) + m (3 + i)| ≤ 1) ∧ rossr3 9 0 6 3 12 3 m = none ∧
      Layout 9 0 6 3 12 3 ∧
      ∃ P, Solves 3 (fun i => m (0 + i)) (fun i => m (3 + i)) (fun i => m (12 + i)) P ∧
        ∀ Q, Solves 3 (fun i => m (0 + i)) (fun i => m (3 + i)) (fun i => m (12 + i)) Q → ∀ i < 3, Q i = P i := by
  refine ⟨fun k => [0, 1, 1, 1, -1, 0].getD k 0, ?_, ?_, ?_, fun _ => 0, ?_, ?_⟩
  · decide +kernel
  · rw [← Option.isNone_iff_eq_none]; decide +kernel
  · constructor <;> unfold Apart <;> omega
  · unfold Solves; decide +kernel
  · intro Q hQ i hi
    have h0 := hQ 0 (by omega)
    have h1 := hQ 1 (by omega)
    have h2 := hQ 2 (by omega)
    simp at h0 h1 h2
    have e2 : Q 2 = 0 := by linarith
    have e1 : Q 1 = 0 := by linarith
    have e0 : Q 0 = 0 := by linarith
    rcases i with _ | _ | _ | i
    · exact e0
    · exact e1
    · exact e2
    · omega

/-- `C(M)`, said not to be used, is set to 0. -/
theorem C130_last_witness : (rossr3 9 0 6 3 12 3 fun _ => 1 / 4).map (fun m => m 5) = some 0 := by decide +kernel

end Verif.Tridiag
