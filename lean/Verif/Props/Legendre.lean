import Verif.Legendre
import Mathlib.Tactic
import Mathlib.Analysis.SpecialFunctions.Sqrt
import Mathlib.Analysis.Calculus.Deriv.Pow
import Mathlib.Analysis.Calculus.Deriv.Mul
import Mathlib.Analysis.Calculus.Deriv.Add

namespace Verif.Legendre

/-! # C159: Legendre functions -/

section
variable {K : Type} [Field K]

/-- The first index of row `m` less 1. -/
def off (lrs : List ℕ) (m : ℕ) : ℕ := (lrs.take m).sum

omit [Field K] in
theorem put_same (a : ℕ → K) (i : ℕ) (v : K) : put a i v i = v := by simp [put]
omit [Field K] in
theorem put_ne (a : ℕ → K) {i j : ℕ} (v : K) (h : j ≠ i) : put a i v j = a j := by simp [put, h]

theorem off_zero (lrs : List ℕ) : off lrs 0 = 0 := by simp [off]
theorem off_succ (lr : ℕ) (lrs : List ℕ) (m : ℕ) : off (lr :: lrs) (m + 1) = lr + off lrs m := by simp [off]

theorem epsRow_spec (sqrt : K → K) (ms mr : ℕ) (n k : ℕ) (e : ℕ → K) (j : ℕ) :
    epsRow sqrt ms mr n k e j = if mr + n ≤ j ∧ j < mr + n + k then
      sqrt ((((ms + (j - mr) - 1 : ℕ) : K) ^ 2 - (ms : K) ^ 2) / (4 * ((ms + (j - mr) - 1 : ℕ) : K) ^ 2 - 1)) else e j := by
  induction k generalizing n e with
  | zero => rw [if_neg (by omega)]; rfl
  | succ k ih =>
    rw [epsRow, ih]
    by_cases h : j = mr + n
    · subst h
      rw [if_neg (by omega), put_same, if_pos (by omega), show mr + n - mr = n by omega]
    · rw [put_ne _ _ h]
      congr 1
      simp only [eq_iff_iff]; omega

theorem epsRows_spec (sqrt : K → K) (ms mr : ℕ) (lrs : List ℕ) (e : ℕ → K) :
    (∀ j, j ≤ mr → epsRows sqrt ms mr lrs e j = e j) ∧
    ∀ m n, m < lrs.length → n < lrs.getD m 0 → (1 ≤ n ∨ 1 ≤ ms + m) →
      epsRows sqrt ms mr lrs e (mr + off lrs m + n + 1) =
        sqrt ((((ms + m + n : ℕ) : K) ^ 2 - ((ms + m : ℕ) : K) ^ 2) / (4 * ((ms + m + n : ℕ) : K) ^ 2 - 1)) := by
  induction lrs generalizing ms mr e with
  | nil => exact ⟨fun _ _ => rfl, by simp⟩
  | cons lr lrs ih =>
    have hr := ih (ms + 1) (mr + lr) (epsRow sqrt ms mr (if ms = 0 then 2 else 1) (lr + 1 - (if ms = 0 then 2 else 1)) e)
    constructor
    · intro j hj
      simp only [epsRows]
      rw [hr.1 j (by omega), epsRow_spec, if_neg]
      split <;> omega
    · intro m n hm hn h1
      simp only [epsRows]
      cases m with
      | zero =>
        simp only [List.getD_cons_zero] at hn
        rw [off_zero, hr.1 _ (by omega), epsRow_spec, if_pos (by split <;> omega)]
        congr 4 <;> simp only [Nat.add_zero] <;> congr 2 <;> omega
      | succ m =>
        simp only [List.getD_cons_succ, List.length_cons] at hn hm
        have := hr.2 m n (by omega) hn (by omega)
        rw [off_succ, show mr + (lr + off lrs m) + n + 1 = mr + lr + off lrs m + n + 1 by omega, this,
          show ms + 1 + m = ms + (m + 1) by omega]

/-- **C159**, the constants: row `m`, place `n` has the root of ((m+n)²-m²)/(4(m+n)²-1), and 0 at the first place. -/
theorem C159_epsilon (sqrt : K → K) (h0 : sqrt 0 = 0) (lrs : List ℕ) (e : ℕ → K) (m n : ℕ) (hm : m < lrs.length) (hn : n < lrs.getD m 0) :
    epsil sqrt lrs e (off lrs m + n + 1) =
      sqrt ((((m + n : ℕ) : K) ^ 2 - (m : K) ^ 2) / (4 * ((m + n : ℕ) : K) ^ 2 - 1)) := by
  by_cases h : off lrs m + n + 1 = 1
  · rw [epsil, h, put_same]
    have : n = 0 := by omega
    subst this
    simp [h0]
  · rw [epsil, put_ne _ _ h]
    have hc : 1 ≤ n ∨ 1 ≤ 0 + m := by
      by_contra hc
      have : m = 0 ∧ n = 0 := by omega
      rw [this.1, this.2, off_zero] at h; exact h rfl
    have := (epsRows_spec sqrt 0 0 lrs e).2 m n hm hn hc
    simpa only [Nat.zero_add] using this

/-- A row: its first value is `h`, `e` are the constants of the row. -/
def P (x : K) (e : ℕ → K) (h : K) : ℕ → K
  | 0 => h
  | 1 => x * h / e 1
  | n + 2 => (x * P x e h (n + 1) - e (n + 1) * P x e h n) / e (n + 2)

/-- The value before. -/
def before (f : ℕ → K) : ℕ → K
  | 0 => 0
  | n + 1 => f n

theorem P_succ (x : K) (e : ℕ → K) (h : K) (n : ℕ) : P x e h (n + 1) = (x * P x e h n - e n * before (P x e h) n) / e (n + 1) := by
  cases n with
  | zero => simp [P, before]
  | succ n => rfl

theorem alpRow_spec (x : K) (eps : ℕ → K) (mr : ℕ) (h : K) (n k : ℕ) (a : ℕ → K)
    (ha : a (mr + n + 1) = P x (fun i => eps (mr + i + 1)) h n) (j : ℕ) :
    alpRow x eps mr (n + 2) k (before (P x (fun i => eps (mr + i + 1)) h) n) a j =
      if mr + n + 2 ≤ j ∧ j < mr + n + 2 + k then P x (fun i => eps (mr + i + 1)) h (j - mr - 1) else a j := by
  induction k generalizing n a with
  | zero => rw [if_neg (by omega)]; rfl
  | succ k ih =>
    simp only [alpRow]
    have hv : (x * a (mr + (n + 2) - 1) - eps (mr + (n + 2) - 1) * before (P x (fun i => eps (mr + i + 1)) h) n) / eps (mr + (n + 2)) =
        P x (fun i => eps (mr + i + 1)) h (n + 1) := by
      rw [show mr + (n + 2) - 1 = mr + n + 1 by omega, ha, P_succ, show mr + (n + 2) = mr + (n + 1) + 1 by omega]
    rw [hv]
    have h2 : put a (mr + (n + 2)) (P x (fun i => eps (mr + i + 1)) h (n + 1)) (mr + (n + 2) - 1) =
        before (P x (fun i => eps (mr + i + 1)) h) (n + 1) := by
      rw [put_ne _ _ (by omega), show mr + (n + 2) - 1 = mr + n + 1 by omega, ha, before]
    rw [h2, show n + 2 + 1 = (n + 1) + 2 by omega, ih (n + 1) _ (by rw [show mr + (n + 1) + 1 = mr + (n + 2) by omega, put_same])]
    by_cases hj : j = mr + (n + 2)
    · subst hj
      rw [if_neg (by omega), put_same, if_pos (by omega)]
      congr 1; omega
    · rw [put_ne _ _ hj]
      congr 1
      simp only [eq_iff_iff]; omega

/-- `PROD` in row `m`. -/
def prodf (x : K) : ℕ → K
  | 0 => 1
  | m + 1 => prodf x m * (1 - x ^ 2) * (1 + 2 * (m : K) + 2) / (2 * (m : K) + 2)

theorem alpRows_spec (sqrt : K → K) (x : K) (eps : ℕ → K) (lrs : List ℕ) (ms mr : ℕ) (a : ℕ → K)
    (hl : ∀ m, m + 1 < lrs.length → 2 ≤ lrs.getD m 0) :
    (∀ j, j ≤ mr → alpRows sqrt x eps lrs mr (1 + 2 * (ms : K)) (2 * (ms : K)) (prodf x ms) a j = a j) ∧
    ∀ m n, m < lrs.length → n < lrs.getD m 0 →
      alpRows sqrt x eps lrs mr (1 + 2 * (ms : K)) (2 * (ms : K)) (prodf x ms) a (mr + off lrs m + n + 1) =
        P x (fun i => eps (mr + off lrs m + i + 1)) (sqrt (prodf x (ms + m) / 2)) n := by
  induction lrs generalizing ms mr a with
  | nil => exact ⟨fun _ _ => rfl, by simp⟩
  | cons lr lrs ih =>
    by_cases h1 : lr = 1
    · have hnil : lrs = [] := by
        by_contra hne
        have : 0 < lrs.length := List.length_pos_iff.2 hne
        have := hl 0 (by simp only [List.length_cons]; omega)
        simp only [List.getD_cons_zero] at this
        omega
      subst hnil h1
      refine ⟨fun j hj => ?_, fun m n hm hn => ?_⟩
      · simp only [alpRows, if_true]; rw [put_ne _ _ (by omega)]
      · simp only [List.length_cons, List.length_nil] at hm
        have : m = 0 := by omega
        subst this
        simp only [List.getD_cons_zero] at hn
        have : n = 0 := by omega
        subst this
        simp only [alpRows, if_true, off_zero, P]
        rw [show mr + 0 + 0 + 1 = mr + 1 by omega, put_same, Nat.add_zero]
    · have hstep : alpRows sqrt x eps (lr :: lrs) mr (1 + 2 * (ms : K)) (2 * (ms : K)) (prodf x ms) a =
          alpRows sqrt x eps lrs (mr + lr) (1 + 2 * ((ms + 1 : ℕ) : K)) (2 * ((ms + 1 : ℕ) : K)) (prodf x (ms + 1))
            (alpRow x eps mr 2 (lr - 1) 0 (put a (mr + 1) (sqrt (prodf x ms / 2)))) := by
        simp only [alpRows, h1, if_false]
        congr 1 <;> first | rfl | (push_cast; ring1)
      have hr := ih (ms + 1) (mr + lr) (alpRow x eps mr 2 (lr - 1) 0 (put a (mr + 1) (sqrt (prodf x ms / 2)))) (by
        intro m hm
        have := hl (m + 1) (by simp only [List.length_cons]; omega)
        simpa only [List.getD_cons_succ] using this)
      have hrow := alpRow_spec x eps mr (sqrt (prodf x ms / 2)) 0 (lr - 1) (put a (mr + 1) (sqrt (prodf x ms / 2)))
        (by rw [Nat.add_zero, put_same, P])
      simp only [before, Nat.add_zero, Nat.zero_add] at hrow
      rw [hstep]
      constructor
      · intro j hj
        rw [hr.1 j (by omega), hrow, if_neg (by omega), put_ne _ _ (by omega)]
      · intro m n hm hn
        cases m with
        | zero =>
          simp only [List.getD_cons_zero] at hn
          rw [off_zero, hr.1 _ (by omega), hrow]
          cases n with
          | zero => rw [if_neg (by omega), Nat.add_zero, Nat.add_zero, put_same]; rfl
          | succ n =>
            rw [if_pos (by omega), Nat.add_zero, Nat.add_zero]
            congr 1; omega
        | succ m =>
          simp only [List.getD_cons_succ, List.length_cons] at hn hm
          have := hr.2 m n (by omega) hn
          rw [off_succ, show mr + (lr + off lrs m) + n + 1 = mr + lr + off lrs m + n + 1 by omega, this,
            show ms + 1 + m = ms + (m + 1) by omega]
          simp only [Nat.add_assoc]

/-- C159, the functions: each row begins with the root of half the product and follows the recurrence, whatever the array was. -/
theorem C159_rows (sqrt : K → K) (x : K) (eps : ℕ → K) (lrs : List ℕ) (a : ℕ → K)
    (hl : ∀ m, m + 1 < lrs.length → 2 ≤ lrs.getD m 0) (m n : ℕ) (hm : m < lrs.length) (hn : n < lrs.getD m 0) :
    alpnm sqrt x eps lrs a (off lrs m + n + 1) = P x (fun i => eps (off lrs m + i + 1)) (sqrt (prodf x m / 2)) n := by
  have := (alpRows_spec sqrt x eps lrs 0 0 a hl).2 m n hm hn
  simpa [alpnm, prodf] using this

/-- C159.  Three values of a row next to each other: e(n+2) P(n+2) + e(n+1) P(n) = x P(n+1). -/
theorem C159_recurrence (sqrt : K → K) (x : K) (eps : ℕ → K) (lrs : List ℕ) (a : ℕ → K)
    (hl : ∀ m, m + 1 < lrs.length → 2 ≤ lrs.getD m 0) (m n : ℕ) (hm : m < lrs.length) (hn : n + 2 < lrs.getD m 0)
    (he : eps (off lrs m + (n + 2) + 1) ≠ 0) :
    eps (off lrs m + (n + 2) + 1) * alpnm sqrt x eps lrs a (off lrs m + (n + 2) + 1) +
      eps (off lrs m + (n + 1) + 1) * alpnm sqrt x eps lrs a (off lrs m + n + 1) =
      x * alpnm sqrt x eps lrs a (off lrs m + (n + 1) + 1) := by
  rw [C159_rows sqrt x eps lrs a hl m (n + 2) hm hn, C159_rows sqrt x eps lrs a hl m (n + 1) hm (by omega),
    C159_rows sqrt x eps lrs a hl m n hm (by omega), P]
  field_simp
  ring

theorem drRow_spec (x : K) (eps alp : ℕ → K) (ms mr n k : ℕ) (d : ℕ → K) (j : ℕ) :
    drRow x eps alp ms mr (n + 1) k (before (fun i => alp (mr + i + 1)) n) d j =
      if mr + n + 1 ≤ j ∧ j < mr + n + 1 + k then
        (2 * ((ms + (j - mr - 1) : ℕ) : K) + 1) * eps j * before (fun i => alp (mr + i + 1)) (j - mr - 1) -
          ((ms + (j - mr - 1) : ℕ) : K) * x * alp j
      else d j := by
  induction k generalizing n d with
  | zero => rw [if_neg (by omega)]; rfl
  | succ k ih =>
    simp only [drRow]
    have := ih (n + 1)
    simp only [before] at this
    rw [show alp (mr + (n + 1)) = alp (mr + n + 1) from rfl, this]
    by_cases hj : j = mr + (n + 1)
    · subst hj
      rw [if_neg (by omega), put_same, if_pos (by omega), show mr + (n + 1) - mr - 1 = n by omega, show ms + (n + 1) - 1 = ms + n by omega]
      ring_nf
    · rw [put_ne _ _ hj]
      congr 1
      simp only [eq_iff_iff]; omega

theorem drRows_spec (x : K) (eps alp : ℕ → K) (ms mr : ℕ) (lrs : List ℕ) (d : ℕ → K) :
    (∀ j, j ≤ mr → drRows x eps alp ms mr lrs d j = d j) ∧
    ∀ m n, m < lrs.length → n < lrs.getD m 0 →
      drRows x eps alp ms mr lrs d (mr + off lrs m + n + 1) =
        (2 * ((ms + m + n : ℕ) : K) + 1) * eps (mr + off lrs m + n + 1) * before (fun i => alp (mr + off lrs m + i + 1)) n -
          ((ms + m + n : ℕ) : K) * x * alp (mr + off lrs m + n + 1) := by
  induction lrs generalizing ms mr d with
  | nil => exact ⟨fun _ _ => rfl, by simp⟩
  | cons lr lrs ih =>
    have hr := ih (ms + 1) (mr + lr) (drRow x eps alp ms mr 1 lr 0 d)
    have hrow := drRow_spec x eps alp ms mr 0 lr d
    simp only [show ∀ f : ℕ → K, before f 0 = 0 from fun _ => rfl, Nat.add_zero, Nat.zero_add] at hrow
    constructor
    · intro j hj
      simp only [drRows]
      rw [hr.1 j (by omega), hrow, if_neg (by omega)]
    · intro m n hm hn
      simp only [drRows]
      cases m with
      | zero =>
        simp only [List.getD_cons_zero] at hn
        rw [off_zero, hr.1 _ (by omega), hrow, if_pos (by omega)]
        simp only [Nat.add_zero, show mr + n + 1 - mr - 1 = n by omega]
      | succ m =>
        simp only [List.getD_cons_succ, List.length_cons] at hn hm
        have := hr.2 m n (by omega) hn
        rw [off_succ, show mr + (lr + off lrs m) + n + 1 = mr + lr + off lrs m + n + 1 by omega, this,
          show ms + 1 + m = ms + (m + 1) by omega]
        simp only [Nat.add_assoc]

end

/-! ## The derivative -/

/-- The factor of `PROD`. -/
noncomputable def cf : ℕ → ℝ
  | 0 => 1
  | m + 1 => cf m * (1 + 2 * (m : ℝ) + 2) / (2 * (m : ℝ) + 2)

theorem cf_pos (m : ℕ) : 0 < cf m := by
  induction m with
  | zero => simp [cf]
  | succ m ih => simp only [cf]; positivity

theorem prodf_eq (x : ℝ) (m : ℕ) : prodf x m = cf m * (1 - x ^ 2) ^ m := by
  induction m with
  | zero => simp [prodf, cf]
  | succ m ih =>
    simp only [prodf, cf, ih]
    have : (2 * (m : ℝ) + 2) ≠ 0 := by positivity
    field_simp
    ring

theorem head_deriv (m : ℕ) (x : ℝ) (hx : 0 < 1 - x ^ 2) :
    HasDerivAt (fun y => Real.sqrt (prodf y m / 2)) (-(m : ℝ) * x * Real.sqrt (prodf x m / 2) / (1 - x ^ 2)) x := by
  have hg : HasDerivAt (fun y : ℝ => cf m * (1 - y ^ 2) ^ m / 2) (cf m * (m * (1 - x ^ 2) ^ (m - 1) * (-(2 * x))) / 2) x := by
    have h1 : HasDerivAt (fun y : ℝ => 1 - y ^ 2) (-(2 * x)) x := by
      have := (hasDerivAt_pow 2 x).const_sub 1
      simpa using this
    exact ((h1.pow m).const_mul (cf m)).div_const 2
  have hpos : 0 < cf m * (1 - x ^ 2) ^ m / 2 := by have := cf_pos m; positivity
  have hs := hg.sqrt hpos.ne'
  simp only [prodf_eq]
  convert hs using 1
  have hsq : Real.sqrt (cf m * (1 - x ^ 2) ^ m / 2) ^ 2 = cf m * (1 - x ^ 2) ^ m / 2 := Real.sq_sqrt hpos.le
  have hsp : 0 < Real.sqrt (cf m * (1 - x ^ 2) ^ m / 2) := Real.sqrt_pos.2 hpos
  rw [div_eq_div_iff hx.ne' (by positivity)]
  have : -(m : ℝ) * x * Real.sqrt (cf m * (1 - x ^ 2) ^ m / 2) * (2 * Real.sqrt (cf m * (1 - x ^ 2) ^ m / 2)) =
      -(m : ℝ) * x * 2 * Real.sqrt (cf m * (1 - x ^ 2) ^ m / 2) ^ 2 := by ring
  rw [this, hsq]
  cases m with
  | zero => simp
  | succ m =>
    simp only [Nat.add_sub_cancel, pow_succ]
    ring

/-- The square of a constant of row `m`. -/
def Good (m : ℕ) (e : ℕ → ℝ) : Prop :=
  ∀ n, e n ^ 2 * (4 * ((m : ℝ) + n) ^ 2 - 1) = ((m : ℝ) + n) ^ 2 - (m : ℝ) ^ 2

theorem P_deriv (m : ℕ) (e : ℕ → ℝ) (he : Good m e) (hne : ∀ n, e (n + 1) ≠ 0) (x : ℝ) (hx : 0 < 1 - x ^ 2) (n : ℕ) :
    HasDerivAt (fun y => P y e (Real.sqrt (prodf y m / 2)) n)
      (((2 * ((m : ℝ) + n) + 1) * e n * before (P x e (Real.sqrt (prodf x m / 2))) n -
        ((m : ℝ) + n) * x * P x e (Real.sqrt (prodf x m / 2)) n) / (1 - x ^ 2)) x := by
  have hD : ∀ k : ℕ, (2 * ((m : ℝ) + (k + 1 : ℕ)) - 1) ≠ 0 ∧ (2 * ((m : ℝ) + (k + 1 : ℕ)) + 1) ≠ 0 := by
    intro k
    push_cast
    have h1 : (0 : ℝ) ≤ m := Nat.cast_nonneg m
    have h2 : (0 : ℝ) ≤ k := Nat.cast_nonneg k
    constructor <;> nlinarith
  induction n using Nat.strong_induction_on with
  | _ n ih =>
    match n, ih with
    | 0, _ =>
      have := head_deriv m x hx
      simp only [P, before]
      convert this using 1
      simp
    | 1, _ =>
      have h0 := head_deriv m x hx
      have h1 := ((hasDerivAt_id x).mul h0).div_const (e 1)
      have h1' : HasDerivAt (fun y => P y e (Real.sqrt (prodf y m / 2)) 1) _ x := h1
      refine h1'.congr_deriv ?_
      simp only [before, P, id_eq]
      have hg := he 1
      have hd := hD 0
      have hn := hne 0
      simp only [Nat.zero_add] at hn hd
      generalize Real.sqrt (prodf x m / 2) = h
      push_cast at hg hd ⊢
      -- (2m+3) e1^2 = 1
      have hk : (2 * ((m : ℝ) + 1) + 1) * e 1 ^ 2 = 1 := by
        have : (2 * ((m : ℝ) + 1) - 1) * ((2 * ((m : ℝ) + 1) + 1) * e 1 ^ 2) = (2 * ((m : ℝ) + 1) - 1) * 1 := by linarith
        exact mul_left_cancel₀ hd.1 this
      field_simp
      linear_combination -h * hk
    | n + 2, ih =>
      have h1 := ih (n + 1) (by omega)
      have h0 := ih n (by omega)
      have h2 := (((hasDerivAt_id x).mul h1).sub (h0.const_mul (e (n + 1)))).div_const (e (n + 2))
      have h2' : HasDerivAt (fun y => P y e (Real.sqrt (prodf y m / 2)) (n + 2)) _ x := h2
      refine h2'.congr_deriv ?_
      have hrec : e (n + 1) * P x e (Real.sqrt (prodf x m / 2)) (n + 1) =
          x * P x e (Real.sqrt (prodf x m / 2)) n - e n * before (P x e (Real.sqrt (prodf x m / 2))) n := by
        rw [P_succ, mul_div_cancel₀ _ (hne n)]
      have hg1 := he (n + 1)
      have hg2 := he (n + 2)
      have hd1 := hD n
      have hd2 := hD (n + 1)
      have hn := hne (n + 1)
      have hk : (2 * ((m : ℝ) + (n + 2)) + 1) * e (n + 2) ^ 2 = 1 + (2 * ((m : ℝ) + (n + 1)) - 1) * e (n + 1) ^ 2 := by
        push_cast at hg1 hg2 hd1 hd2
        have q2 : (2 * ((m : ℝ) + (n + 2)) - 1) * ((2 * ((m : ℝ) + (n + 2)) + 1) * e (n + 2) ^ 2) = ((m : ℝ) + (n + 2)) ^ 2 - (m : ℝ) ^ 2 := by
          linarith
        have q1 : (2 * ((m : ℝ) + (n + 1)) + 1) * ((2 * ((m : ℝ) + (n + 1)) - 1) * e (n + 1) ^ 2) = ((m : ℝ) + (n + 1)) ^ 2 - (m : ℝ) ^ 2 := by
          linarith
        apply mul_left_cancel₀ hd1.2
        linear_combination q2 - q1
      simp only [show ∀ (f : ℕ → ℝ) k, before f (k + 1) = f k from fun _ _ => rfl, id_eq, P]
      generalize before (P x e (Real.sqrt (prodf x m / 2))) n = w at hrec ⊢
      generalize P x e (Real.sqrt (prodf x m / 2)) (n + 1) = u at hrec ⊢
      generalize P x e (Real.sqrt (prodf x m / 2)) n = v at hrec ⊢
      generalize e (n + 2) = e2 at *
      generalize e (n + 1) = e1 at *
      generalize e n = e0 at *
      push_cast
      have hx' := hx.ne'
      field_simp
      linear_combination -u * hk - e1 * (2 * ((m : ℝ) + n) + 1) * hrec

/-- **C159**, the derivatives.  For a sine of latitude within (-1, 1), what `ALPDR2` computes from the values of `ALPNM2` with the
constants of `EPSIL2` is (1-x²) times the derivative of the values, for each row and place. -/
theorem C159_derivative (lrs : List ℕ) (hl : ∀ m, m + 1 < lrs.length → 2 ≤ lrs.getD m 0) (e a d : ℕ → ℝ) (x : ℝ) (hx : |x| < 1)
    (m n : ℕ) (hm : m < lrs.length) (hn : n < lrs.getD m 0) :
    HasDerivAt (fun y => alpnm Real.sqrt y (epsil Real.sqrt lrs e) lrs a (off lrs m + n + 1))
      (alpdr x (epsil Real.sqrt lrs e) (alpnm Real.sqrt x (epsil Real.sqrt lrs e) lrs a) lrs d (off lrs m + n + 1) / (1 - x ^ 2)) x := by
  have hx2 : 0 < 1 - x ^ 2 := by
    have := (abs_lt.1 hx)
    nlinarith [this.1, this.2]
  -- constants of the row, continued beyond its end
  let f : ℕ → ℝ := fun i => Real.sqrt ((((m + i : ℕ) : ℝ) ^ 2 - (m : ℝ) ^ 2) / (4 * ((m + i : ℕ) : ℝ) ^ 2 - 1))
  have hf : ∀ i, i < lrs.getD m 0 → epsil Real.sqrt lrs e (off lrs m + i + 1) = f i := fun i hi =>
    C159_epsilon Real.sqrt Real.sqrt_zero lrs e m i hm hi
  have hP : ∀ (y h : ℝ) (i : ℕ), i < lrs.getD m 0 → P y (fun i => epsil Real.sqrt lrs e (off lrs m + i + 1)) h i = P y f h i := by
    intro y h i
    induction i using Nat.strong_induction_on with
    | _ i ih =>
      match i, ih with
      | 0, _ => intro _; rfl
      | 1, _ => intro hi; simp only [P]; rw [hf 1 hi]
      | i + 2, ih =>
        intro hi
        simp only [P]
        rw [ih (i + 1) (by omega) (by omega), ih i (by omega) (by omega), hf (i + 1) (by omega), hf (i + 2) hi]
  have hden : ∀ i : ℕ, (0 : ℝ) < 4 * ((m + (i + 1) : ℕ) : ℝ) ^ 2 - 1 := by
    intro i
    push_cast
    have h1 : (0 : ℝ) ≤ m := Nat.cast_nonneg m
    have h2 : (0 : ℝ) ≤ i := Nat.cast_nonneg i
    nlinarith
  have hnum : ∀ i : ℕ, (0 : ℝ) < ((m + (i + 1) : ℕ) : ℝ) ^ 2 - (m : ℝ) ^ 2 := by
    intro i
    push_cast
    have h1 : (0 : ℝ) ≤ m := Nat.cast_nonneg m
    have h2 : (0 : ℝ) ≤ i := Nat.cast_nonneg i
    nlinarith
  have hgood : Good m f := by
    intro i
    cases i with
    | zero => simp [f]
    | succ i =>
      simp only [f]
      rw [Real.sq_sqrt (div_pos (hnum i) (hden i)).le]
      have := div_mul_cancel₀ (((m + (i + 1) : ℕ) : ℝ) ^ 2 - (m : ℝ) ^ 2) (hden i).ne'
      push_cast at this ⊢
      exact this
  have hne : ∀ i, f (i + 1) ≠ 0 := fun i => (Real.sqrt_pos.2 (div_pos (hnum i) (hden i))).ne'
  have key := P_deriv m f hgood hne x hx2 n
  have hfun : (fun y => alpnm Real.sqrt y (epsil Real.sqrt lrs e) lrs a (off lrs m + n + 1)) =
      fun y => P y f (Real.sqrt (prodf y m / 2)) n := by
    funext y
    rw [C159_rows Real.sqrt y _ lrs a hl m n hm hn, hP y _ n hn]
  rw [hfun]
  convert key using 2
  have hdr := (drRows_spec x (epsil Real.sqrt lrs e) (alpnm Real.sqrt x (epsil Real.sqrt lrs e) lrs a) 0 0 lrs d).2 m n hm hn
  simp only [Nat.zero_add] at hdr
  rw [alpdr, hdr, hf n hn, C159_rows Real.sqrt x _ lrs a hl m n hm hn, hP x _ n hn]
  have hb : before (fun i => alpnm Real.sqrt x (epsil Real.sqrt lrs e) lrs a (off lrs m + i + 1)) n =
      before (P x f (Real.sqrt (prodf x m / 2))) n := by
    cases n with
    | zero => rfl
    | succ n =>
      simp only [before]
      rw [C159_rows Real.sqrt x _ lrs a hl m n hm (by omega), hP x _ n (by omega)]
  rw [hb]
  push_cast
  ring

/-- Rows of 3, 2 and 1 values, and any latitude. -/
example : (∀ m, m + 1 < [3, 2, 1].length → 2 ≤ [3, 2, 1].getD m 0) ∧ |(1 / 2 : ℝ)| < 1 := by
  constructor
  · intro m hm
    simp only [List.length_cons, List.length_nil] at hm
    have : m = 0 ∨ m = 1 := by omega
    rcases this with rfl | rfl <;> decide
  · rw [abs_of_pos] <;> norm_num

/-- Values with the identity in place of the root, over the rational numbers: `a` is -1 where nothing is stored. -/
example : (List.range 8).map (alpnm (fun v : ℚ => v) (1 / 2) (epsil (fun v => v) [3, 2, 1] (fun _ => 7)) [3, 2, 1] (fun _ => -1)) =
    [-1, 1 / 2, 3 / 4, 25 / 32, 9 / 16, 45 / 32, 135 / 256, -1] := by decide +kernel

/-- C159.  Rows of one value, as for a truncation at 0: all of them are stored at the first place. -/
theorem C159_single_witness :
    (List.range 4).map (alpnm (fun v : ℚ => v) (1 / 2) (fun _ => 1) [1, 1, 1] (fun _ => -1)) = [-1, 1 / 2, -1, -1] := by
  decide +kernel


end Verif.Legendre
